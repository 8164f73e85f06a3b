import Verif.Spec.Receiver
import Verif.Props.Stops
import Verif.Props.Exact
/-
Lemmas about programs that decode from octets that arrive in pieces.
-/
namespace Oct
open Spec Props

namespace Receiver

/-- How `pump` goes on, by what decoding gives. -/
theorem pump_ok {t : Ty} {k : t.Val → Talk} {buf : List Byte} {v : t.Val} {i : Input}
    (h : t.decode (Input.new buf) = (.ok v, i)) :
    pump (.next t k) buf =
      { pump (k v) (buf.drop i.pos) with got := ⟨t, v⟩ :: (pump (k v) (buf.drop i.pos)).got } := by
  rw [pump, h]
  rfl

theorem pump_short {t : Ty} {k : t.Val → Talk} {buf : List Byte}
    (h : (t.decode (Input.new buf)).1 = .panic .shortInput) :
    pump (.next t k) buf = ⟨buf, .next t k, [], none⟩ := by
  rw [pump, show t.decode (Input.new buf) = (.panic .shortInput, (t.decode (Input.new buf)).2) from
    Prod.ext h rfl]

/-- An outcome that is neither a value nor lack of input. -/
def Fails {α : Type} (f : Res DecErr Empty) (r : Res DecErr α) : Prop :=
  match f with
  | .ok v => nomatch v
  | .err e => r = .err e
  | .panic p => r = .panic p ∧ p ≠ .shortInput
  | .ub u => r = .ub u

theorem pump_fail {t : Ty} {k : t.Val → Talk} {buf : List Byte} {f : Res DecErr Empty}
    (h : Fails f (t.decode (Input.new buf)).1) :
    pump (.next t k) buf = ⟨buf, .next t k, [], some f⟩ := by
  have e : t.decode (Input.new buf) = ((t.decode (Input.new buf)).1, (t.decode (Input.new buf)).2) := rfl
  match f, h with
  | .err _, h =>
    rw [show (t.decode (Input.new buf)).1 = _ from h] at e
    rw [pump, e]
  | .panic p, h =>
    rw [show (t.decode (Input.new buf)).1 = _ from h.1] at e
    have hp := h.2
    rw [pump, e]
    cases p <;> first | rfl | exact absurd rfl hp
  | .ub _, h =>
    rw [show (t.decode (Input.new buf)).1 = _ from h] at e
    rw [pump, e]

/-- One of the three. -/
theorem three {α : Type} (r : Res DecErr α) :
    (∃ v, r = .ok v) ∨ r = .panic .shortInput ∨ ∃ f, Fails f r := by
  match r with
  | .ok v => exact .inl ⟨v, rfl⟩
  | .err e => exact .inr (.inr ⟨.err e, rfl⟩)
  | .panic p =>
    by_cases hp : p = .shortInput
    · exact .inr (.inl (by rw [hp]))
    · exact .inr (.inr ⟨.panic p, rfl, hp⟩)
  | .ub u => exact .inr (.inr ⟨.ub u, rfl⟩)

/-- Decoding that does not run out of input is not changed by more of it. -/
theorem decode_more (t : Ty) (a b : List Byte) (h : (t.decode (Input.new a)).1 ≠ .panic .shortInput) :
    ∃ n, n ≤ a.length ∧ (t.decode (Input.new a)) = ((t.decode (Input.new a)).1, ⟨a, n⟩) ∧
      t.decode (Input.new (a ++ b)) = ((t.decode (Input.new a)).1, ⟨a ++ b, n⟩) := by
  obtain ⟨r, n, hl, h1, h2⟩ := t.decode_local a
  have e1 : t.decode (Input.new a) = (r, ⟨a, n⟩) := (h1 []).trans (by simp)
  rw [e1] at h ⊢
  refine ⟨n, hl, rfl, ?_⟩
  have e2 := h2 h [] (a.drop n ++ b)
  rw [← List.append_assoc (a.take n), List.take_append_drop] at e2
  exact e2.trans (by simp)

/-- With a piece more, the program is where it would be if both had arrived at once. -/
theorem pump_append (talk : Talk) : ∀ a b : List Byte, (pump talk a).arrive b = pump talk (a ++ b) := by
  induction talk with
  | done => intro a b; rfl
  | next t k ih =>
    intro a b
    rcases three (t.decode (Input.new a)).1 with ⟨v, hv⟩ | hs | ⟨f, hf⟩
    · obtain ⟨n, hn, e1, e2⟩ := decode_more t a b (by rw [hv]; exact fun h => nomatch h)
      rw [hv] at e1 e2
      rw [pump_ok e1, pump_ok e2]
      have hd : (a ++ b).drop n = a.drop n ++ b := by
        rw [List.drop_append_of_le_length hn]
      have := ih v (a.drop n) b
      rw [show (a ++ b).drop (⟨a ++ b, n⟩ : Input).pos = a.drop n ++ b from hd, ← this]
      unfold arrive
      show (match (pump (k v) (a.drop n)).failed with | some _ => _ | none => _) = _
      cases (pump (k v) (a.drop n)).failed with
      | some _ => rfl
      | none => rfl
    · rw [pump_short hs]
      rfl
    · rw [pump_fail hf]
      obtain ⟨n, hn, e1, e2⟩ := decode_more t a b (by
        intro h
        rw [h] at hf
        match f, hf with
        | .panic p, hf => exact hf.2 (Res.panic.inj hf.1).symm)
      have hf' : Fails f (t.decode (Input.new (a ++ b))).1 := by
        rw [e2]
        exact hf
      rw [pump_fail hf']
      rfl

/-- After any pieces, the program is where it would be if all had arrived at once. -/
theorem receive_eq (talk : Talk) (pieces : List (List Byte)) :
    receive talk pieces = pump talk pieces.flatten := by
  unfold receive start
  have : ∀ (a : List Byte), pieces.foldl arrive (pump talk a) = pump talk (a ++ pieces.flatten) := by
    induction pieces with
    | nil => intro a; rw [List.flatten_nil, List.append_nil]; rfl
    | cons p ps ih =>
      intro a
      rw [List.foldl_cons, pump_append, ih, List.flatten_cons, List.append_assoc]
  exact (this []).trans (by rw [List.nil_append])

/-- What has been decoded stays. -/
theorem pump_got (talk : Talk) (a b : List Byte) : (pump talk a).got <+: (pump talk (a ++ b)).got := by
  rw [← pump_append]
  unfold arrive
  split
  · exact List.prefix_refl _
  · exact List.prefix_append _ _

theorem fails_spoils {t : Ty} (ht : t.WF) {k : t.Val → Talk} {buf : List Byte} {f : Res DecErr Empty}
    (h : Fails f (t.decode (Input.new buf)).1) : Spoils (.next t k) buf f := by
  have e : t.decode (Input.new buf) = ((t.decode (Input.new buf)).1, (t.decode (Input.new buf)).2) := rfl
  have stop : ∀ s : Stop, (t.decode (Input.new buf)).1 = s.res → f = s.res → Spoils (.next t k) buf f := by
    intro s hs hf
    obtain ⟨b, rest, hr, hS, _⟩ := (C128_stops t ht (Input.new buf) _ s).mp (Prod.ext hs rfl)
    exact ⟨b, ⟨rest, hr.symm⟩, .inr ⟨s, hS, hf⟩⟩
  match f, h with
  | .err e', h =>
    obtain ⟨b, rest, hr, hR, _⟩ := (C53_rejected t ht (Input.new buf) _ e').mp (Prod.ext h rfl)
    exact ⟨b, ⟨rest, hr.symm⟩, .inl ⟨e', hR, rfl⟩⟩
  | .panic p, h =>
    rcases C16_all_panics_partial t _ p h.1 with hp | hp | hp
    · exact absurd hp h.2
    · exact stop .durationOverflow (by rw [h.1, hp]; rfl) (by rw [hp]; rfl)
    · exact stop .infallible (by rw [h.1, hp]; rfl) (by rw [hp]; rfl)
  | .ub u, h =>
    have hu := C17_only_invalid_char_partial t _ u h
    exact stop .invalidChar (by rw [show (t.decode (Input.new buf)).1 = _ from h, hu]; rfl) (by rw [hu]; rfl)

theorem spoils_fails {t : Ty} (ht : t.WF) {k : t.Val → Talk} {buf : List Byte} {f : Res DecErr Empty}
    (h : Spoils (.next t k) buf f) : Fails f (t.decode (Input.new buf)).1 := by
  obtain ⟨b, ⟨rest, hr⟩, ⟨e, hR, rfl⟩ | ⟨s, hS, rfl⟩⟩ := h
  · rw [(C53_rejected t ht (Input.new buf) _ e).mpr ⟨b, rest, hr.symm, hR, rfl⟩]
    rfl
  · rw [(C128_stops t ht (Input.new buf) _ s).mpr ⟨b, rest, hr.symm, hS, rfl⟩]
    cases s
    · rfl
    · exact ⟨rfl, fun h => nomatch h⟩
    · exact ⟨rfl, fun h => nomatch h⟩

theorem pump_next {t : Ty} (ht : t.WF) {k : t.Val → Talk} {b rest : List Byte} {v : t.Val} (h : Accepts t b v) :
    pump (.next t k) (b ++ rest) =
      { pump (k v) rest with got := ⟨t, v⟩ :: (pump (k v) rest).got } := by
  rw [pump_ok ((C52_accepted t ht (Input.new (b ++ rest)) _ v).mpr ⟨b, rest, rfl, h, rfl⟩)]
  have : (b ++ rest).drop (0 + b.length) = rest := by simp
  show { pump (k v) ((b ++ rest).drop (0 + b.length)) with
    got := ⟨t, v⟩ :: (pump (k v) ((b ++ rest).drop (0 + b.length))).got } = _
  rw [this]

theorem pump_tells (talk : Talk) (hw : TalkWF talk) : ∀ bs, Tells talk bs (pump talk bs) := by
  induction talk with
  | done => exact fun bs => ⟨[], rfl, .nil _, trivial⟩
  | next t k ih =>
    intro bs
    rcases three (t.decode (Input.new bs)).1 with ⟨v, hv⟩ | hs | ⟨f, hf⟩
    · obtain ⟨b, rest, hr, hA, _⟩ := (C52_accepted t hw.1 (Input.new bs) _ v).mp (Prod.ext hv rfl)
      have hr : bs = b ++ rest := hr
      subst hr
      rw [pump_next hw.1 hA]
      obtain ⟨w, e, hS, hm⟩ := ih v (hw.2 v) rest
      exact ⟨b ++ w, by rw [List.append_assoc, ← e], .cons hA hS, hm⟩
    · rw [pump_short hs]
      refine ⟨[], rfl, .nil _, fun b ⟨rest, hr⟩ => ?_⟩
      exact (C128_short t hw.1 (Input.new bs)).mp hs b rest hr.symm
    · rw [pump_fail hf]
      exact ⟨[], rfl, .nil _, fails_spoils hw.1 hf⟩

theorem says_pump {talk k' : Talk} {w : List Byte} {vs : List (Sigma Ty.Val)} (h : Says talk w vs k')
    (hw : TalkWF talk) (rest : List Byte) :
    pump talk (w ++ rest) = { pump k' rest with got := vs ++ (pump k' rest).got } := by
  induction h with
  | nil k => rfl
  | cons hA _ ih =>
    rw [List.append_assoc, pump_next hw.1 hA, ih (hw.2 _)]
    rfl

theorem says_wf {talk k' : Talk} {w : List Byte} {vs : List (Sigma Ty.Val)} (h : Says talk w vs k')
    (hw : TalkWF talk) : TalkWF k' := by
  induction h with
  | nil k => exact hw
  | cons _ _ ih => exact ih (hw.2 _)

theorem tells_pump (talk : Talk) (hw : TalkWF talk) (bs : List Byte) (r : Receiver) (h : Tells talk bs r) :
    r = pump talk bs := by
  obtain ⟨buf, k', got, failed⟩ := r
  obtain ⟨w, e, hS, hm⟩ := h
  have hS : Says talk w got k' := hS
  have e : bs = w ++ buf := e
  rw [e, says_pump hS hw buf]
  have hk := says_wf hS hw
  have : pump k' buf = ⟨buf, k', [], failed⟩ := by
    match k', failed, hm, hk with
    | .done, none, _, _ => rfl
    | .next t k, none, hm, hk =>
      exact pump_short ((C128_short t hk.1 (Input.new buf)).mpr fun b rest hr => hm b ⟨rest, hr.symm⟩)
    | .next t k, some f, hm, hk => exact pump_fail (spoils_fails hk.1 hm)
  rw [this, List.append_nil]

theorem says_all : ∀ (ts : List Ty) (w : List Byte) (vs : List (Sigma Ty.Val)) (k' : Talk),
    Says (expecting ts) w vs k' → (∀ t ∈ ts, t.WF) → vs.length = ts.length → ∀ pre rest : List Byte,
    decodeAll ts ⟨pre ++ (w ++ rest), pre.length⟩ = (.ok vs, ⟨pre ++ (w ++ rest), pre.length + w.length⟩)
  | [], w, vs, k', h, _, hl, pre, rest => by
    cases h
    rfl
  | t :: ts, w, vs, k', h, hw, hl, pre, rest => by
    cases h with
    | nil => exact absurd hl (by simp)
    | @cons _ _ b bs v vs _ hA hS =>
      have ih := says_all ts bs vs k' hS (fun t ht => hw t (List.mem_cons_of_mem _ ht))
        (Nat.succ.inj hl) (pre ++ b) rest
      have hd := (C52_accepted t (hw t List.mem_cons_self) ⟨pre ++ (b ++ bs ++ rest), pre.length⟩ _ v).mpr
        ⟨b, bs ++ rest, by simp, hA, rfl⟩
      have e : pre ++ b ++ (bs ++ rest) = pre ++ (b ++ bs ++ rest) := by simp
      rw [e, List.length_append] at ih
      show Dec.bind t.decode _ _ = _
      unfold Dec.bind
      rw [hd]
      show Dec.bind (decodeAll ts) _ _ = _
      unfold Dec.bind
      rw [show (⟨(⟨pre ++ (b ++ bs ++ rest), pre.length⟩ : Input).buf,
        (⟨pre ++ (b ++ bs ++ rest), pre.length⟩ : Input).pos + b.length⟩ : Input)
        = ⟨pre ++ (b ++ bs ++ rest), pre.length + b.length⟩ from rfl, ih]
      rw [List.length_append, Nat.add_assoc]
      rfl

theorem all_says : ∀ (ts : List Ty) (i i' : Input) (vs : List (Sigma Ty.Val)), (∀ t ∈ ts, t.WF) →
    decodeAll ts i = (.ok vs, i') →
    ∃ w, w <+: i.buf.drop i.pos ∧ i' = ⟨i.buf, i.pos + w.length⟩ ∧ Says (expecting ts) w vs .done
  | [], i, i', vs, _, h => by
    cases h
    exact ⟨[], List.nil_prefix, rfl, .nil _⟩
  | t :: ts, i, i', vs, hw, h => by
    have h : Dec.bind t.decode (fun v => Dec.bind (decodeAll ts) fun vs => Dec.pure (⟨t, v⟩ :: vs)) i
      = (.ok vs, i') := h
    unfold Dec.bind at h
    split at h
    · rename_i v i1 e1
      simp only at h
      split at h
      · rename_i vs' i2 e2
        cases h
        obtain ⟨b, rest, hr, hA, rfl⟩ := (C52_accepted t (hw t List.mem_cons_self) i i1 v).mp e1
        obtain ⟨w, ⟨r', hp⟩, e, hS⟩ := all_says ts _ _ vs' (fun t ht => hw t (List.mem_cons_of_mem _ ht)) e2
        refine ⟨b ++ w, ⟨r', ?_⟩, ?_, .cons hA hS⟩
        · have : i.buf.drop (i.pos + b.length) = rest := by
            rw [← List.drop_drop, hr]
            simp
          rw [show (i.buf.drop (i.pos + b.length)) = _ from this] at hp
          rw [hr, List.append_assoc, hp]
        · rw [e, List.length_append, Nat.add_assoc]
      all_goals cases h
    all_goals cases h

theorem expecting_wf : ∀ ts : List Ty, (∀ t ∈ ts, t.WF) → TalkWF (expecting ts)
  | [], _ => trivial
  | t :: ts, h => ⟨h t List.mem_cons_self, fun _ => expecting_wf ts fun t ht => h t (List.mem_cons_of_mem _ ht)⟩

end Receiver
end Oct
