import Verif.Spec.Shared
/- Lemmas for C71 and C72. -/
namespace Oct
open Spec

/-- Induction from the end of a list. -/
theorem concatInd {α : Type} {P : List α → Prop} (nil : P [])
    (snoc : ∀ l a, P l → P (l ++ [a])) (l : List α) : P l := by
  have h : ∀ l : List α, P l.reverse := by
    intro l
    induction l with
    | nil => exact nil
    | cons a l ih => rw [List.reverse_cons]; exact snoc _ _ ih
  have := h l.reverse
  rwa [List.reverse_reverse] at this

theorem concat_eq_split {α : Type} {es p q : List α} {a e : α} (h : es ++ [e] = p ++ a :: q) :
    (q = [] ∧ es = p ∧ e = a) ∨ ∃ q', q = q' ++ [e] ∧ es = p ++ a :: q' := by
  rcases List.eq_nil_or_concat q with rfl | ⟨q', x, rfl⟩
  · obtain ⟨h1, h2⟩ := List.append_inj' h rfl
    exact .inl ⟨rfl, h1, by simpa using h2⟩
  · rw [List.concat_eq_append] at *
    have h' : es ++ [e] = (p ++ a :: q') ++ [x] := by simpa using h
    obtain ⟨h1, h2⟩ := List.append_inj' h' rfl
    have h2 : e = x := by simpa using h2
    exact .inr ⟨q', by rw [h2], h1⟩

namespace Shared
variable {α : Type} {part : Steps α} {s : Shared α}

@[simp] theorem run_nil : s.run part [] = s := rfl

theorem run_concat (es : List (Event α)) (e : Event α) :
    s.run part (es ++ [e]) = (s.run part es).step part e := by
  simp only [run, List.foldl_append, List.foldl_cons, List.foldl_nil]

/-- When the encoder `k` got its guard. -/
def Entered (part : Steps α) (s : Shared α) (es : List (Event α)) (k : Nat) (v : α) : Prop :=
  ∃ p q, es = p ++ .lock k :: q ∧ (s.run part p).writer = none ∧ (s.run part p).val = v

theorem Entered.snoc {es : List (Event α)} {k : Nat} {v : α} (e : Event α)
    (h : Entered part s es k v) : Entered part s (es ++ [e]) k v := by
  obtain ⟨p, q, rfl, h1, h2⟩ := h
  exact ⟨p, q ++ [e], by simp, h1, h2⟩

/-- What is known of an encoder by its phase, after `es`. -/
def Known (part : Steps α) (s0 : Shared α) (es : List (Event α)) (k : Nat) (s : Shared α) : Prop :=
  match s.phase k with
  | .waiting => s.output k = s0.output k
  | .running i => k ∈ s.readers ∧ Entered part s0 es k s.val ∧
      ∀ r o, Undisturbed part s.val i (s.output k) r o → Undisturbed part s.val 0 (s0.output k) r o
  | .finished r => ∃ v, Entered part s0 es k v ∧
      Undisturbed part v 0 (s0.output k) r (s.output k)

/-- Invariant of schedules. -/
structure Inv (part : Steps α) (s0 : Shared α) (es : List (Event α)) (s : Shared α) : Prop where
  excl : s.writer ≠ none → s.readers = []
  known : ∀ k, Known part s0 es k s

/-- Steps that do not concern the encoder. -/
theorem Known.keep {s0 : Shared α} {es : List (Event α)} {k : Nat} {s s' : Shared α} (e : Event α)
    (h : Known part s0 es k s) (hp : s'.phase k = s.phase k) (ho : s'.output k = s.output k)
    (hr : k ∈ s.readers → k ∈ s'.readers ∧ s'.val = s.val) :
    Known part s0 (es ++ [e]) k s' := by
  unfold Known at h ⊢
  rw [hp]
  cases hph : s.phase k with
  | waiting => rw [hph] at h; simp only at h ⊢; rw [ho, h]
  | running i =>
    rw [hph] at h; simp only at h ⊢
    obtain ⟨h1, h2, h3⟩ := h
    obtain ⟨h4, h5⟩ := hr h1
    rw [h5, ho]
    exact ⟨h4, h2.snoc e, h3⟩
  | finished r =>
    rw [hph] at h; simp only at h ⊢
    obtain ⟨v, h1, h2⟩ := h
    rw [ho]
    exact ⟨v, h1.snoc e, h2⟩

theorem lets_writer {s : Shared α} (h : s.lets = true) : s.writer = none := by
  unfold lets at h
  cases hk : s.kind <;> rw [hk] at h <;> simp at h
  · exact h.1
  · exact h

theorem Inv.finish {s0 : Shared α} {es : List (Event α)} {s : Shared α} (h : Inv part s0 es s)
    (e : Event α) (k : Nat) (r : Res EncErr Unit) (o : Output)
    (hk : ∃ v, Entered part s0 es k v ∧ Undisturbed part v 0 (s0.output k) r o) :
    Inv part s0 (es ++ [e]) (s.finish k r o) where
  excl hw := by
    show s.readers.erase k = []
    rw [h.excl hw]; rfl
  known k' := by
    by_cases hkk : k' = k
    · subst hkk
      obtain ⟨v, h1, h2⟩ := hk
      unfold Known Shared.finish
      simp only [if_true]
      exact ⟨v, h1.snoc e, h2⟩
    · refine (h.known k').keep e ?_ ?_ ?_
      · simp [Shared.finish, hkk]
      · simp [Shared.finish, hkk]
      · intro hm; exact ⟨(List.mem_erase_of_ne hkk).2 hm, rfl⟩

theorem Inv.step {s0 : Shared α} {es : List (Event α)} (h : Inv part s0 es (s0.run part es))
    (e : Event α) : Inv part s0 (es ++ [e]) ((s0.run part es).step part e) := by
  have same : Inv part s0 (es ++ [e]) (s0.run part es) :=
    ⟨h.excl, fun k => (h.known k).keep e rfl rfl fun hm => ⟨hm, rfl⟩⟩
  generalize hs : s0.run part es = s at *
  cases e with
  | lock k =>
    cases hph : s.phase k with
    | waiting =>
      by_cases hl : s.lets = true
      · simp only [Shared.step, hph, hl, if_true]
        refine ⟨fun hw => absurd (lets_writer hl) hw, fun k' => ?_⟩
        by_cases hkk : k' = k
        · subst hkk
          have hk := h.known k'
          unfold Known at hk ⊢
          rw [hph] at hk
          simp only at hk
          simp only [if_true, List.mem_cons, true_or, true_and]
          rw [hk]
          exact ⟨⟨es, [], by simp, by rw [hs]; exact lets_writer hl, by rw [hs]⟩, fun _ _ h => h⟩
        · refine (h.known k').keep _ ?_ rfl ?_
          · simp [hkk]
          · intro hm; exact ⟨List.mem_cons_of_mem _ hm, rfl⟩
      · simp only [Shared.step, hph, hl]; exact same
    | running i => simp only [Shared.step, hph]; exact same
    | finished r => simp only [Shared.step, hph]; exact same
  | encode k =>
    cases hph : s.phase k with
    | waiting => simp only [Shared.step, hph]; exact same
    | finished r => simp only [Shared.step, hph]; exact same
    | running i =>
      have hk := h.known k
      unfold Known at hk
      rw [hph] at hk
      obtain ⟨h1, h2, h3⟩ := hk
      cases hpt : part i s.val with
      | none =>
        simp only [Shared.step, hph, hpt]
        exact h.finish _ _ _ _ ⟨s.val, h2, h3 _ _ (.over hpt)⟩
      | some m =>
        cases hm : m (s.output k) with
        | mk r o =>
          by_cases hr : r = .ok ()
          · subst hr
            simp only [Shared.step, hph, hpt, hm]
            refine ⟨h.excl, fun k' => ?_⟩
            by_cases hkk : k' = k
            · subst hkk
              unfold Known
              simp only [if_true]
              exact ⟨h1, h2.snoc _, fun r' o' hu => h3 _ _ (.next hpt hm hu)⟩
            · refine (h.known k').keep _ ?_ ?_ fun hm => ⟨hm, rfl⟩
              · simp [hkk]
              · simp [hkk]
          · have e : s.step part (.encode k) = s.finish k r o := by
              cases r with
              | ok u => exact absurd rfl hr
              | _ => simp only [Shared.step, hph, hpt, hm]
            rw [e]
            exact h.finish _ _ _ _ ⟨s.val, h2, h3 _ _ (.stop hpt hm hr)⟩
  | acquire w =>
    by_cases hc : (s.writer.isNone && s.readers.isEmpty) = true
    · simp only [Shared.step, hc, if_true]
      have hr : s.readers = [] := by
        rw [Bool.and_eq_true] at hc
        exact List.isEmpty_iff.1 hc.2
      exact ⟨fun _ => hr, fun k => (h.known k).keep _ rfl rfl fun hm => ⟨hm, rfl⟩⟩
    · simp only [Shared.step, hc]; exact same
  | store w g =>
    by_cases hc : s.writer = some w
    · simp only [Shared.step, hc, if_true]
      have hr : s.readers = [] := h.excl (by rw [hc]; simp)
      refine ⟨fun _ => hr, fun k => (h.known k).keep _ rfl rfl fun hm => ?_⟩
      rw [hr] at hm; cases hm
    · simp only [Shared.step, hc]; exact same
  | release w =>
    by_cases hc : s.writer = some w
    · simp only [Shared.step, hc, if_true]
      exact ⟨fun hw => absurd rfl hw, fun k => (h.known k).keep _ rfl rfl fun hm => ⟨hm, rfl⟩⟩
    · simp only [Shared.step, hc]; exact same
  | panic w =>
    by_cases hc : s.writer = some w
    · simp only [Shared.step, hc, if_true]
      exact ⟨fun hw => absurd rfl hw, fun k => (h.known k).keep _ rfl rfl fun hm => ⟨hm, rfl⟩⟩
    · simp only [Shared.step, hc]; exact same

theorem start_inv (kind : LockKind) (v : α) (outs : Nat → Output) :
    Inv part (start kind v outs) [] (start kind v outs) :=
  ⟨fun h => absurd rfl h, fun _ => rfl⟩

theorem run_inv (kind : LockKind) (v : α) (outs : Nat → Output) (es : List (Event α)) :
    Inv part (start kind v outs) es ((start kind v outs).run part es) := by
  induction es using concatInd with
  | nil => exact start_inv kind v outs
  | snoc es e ih => rw [run_concat]; exact ih.step e

theorem tidy_init {P : α → Prop} {es : List (Event α)} {e : Event α}
    (h : Tidy P part s (es ++ [e])) : Tidy P part s es := by
  refine ⟨fun w hm => h.1 w (by simp [hm]), fun p q w he hw => h.2 p (q ++ [e]) w (by simp [he]) hw⟩

theorem finish_val (k : Nat) (r : Res EncErr Unit) (o : Output) :
    (s.finish k r o).val = s.val ∧ (s.finish k r o).writer = s.writer := ⟨rfl, rfl⟩

/-- Encoders do not change the contents. -/
theorem encode_val (k : Nat) :
    (s.step part (.encode k)).val = s.val ∧ (s.step part (.encode k)).writer = s.writer := by
  cases hph : s.phase k with
  | waiting => simp only [Shared.step, hph, and_self]
  | finished r => simp only [Shared.step, hph, and_self]
  | running i =>
    cases hpt : part i s.val with
    | none => simp only [Shared.step, hph, hpt]; exact finish_val _ _ _
    | some m =>
      cases hm : m (s.output k) with
      | mk r o =>
        cases r with
        | ok u => simp only [Shared.step, hph, hpt, hm, and_self]
        | _ => simp only [Shared.step, hph, hpt, hm]; exact finish_val _ _ _

theorem lock_val (k : Nat) :
    (s.step part (.lock k)).val = s.val ∧ (s.step part (.lock k)).writer = s.writer := by
  cases hph : s.phase k with
  | waiting =>
    by_cases hl : s.lets = true
    · simp only [Shared.step, hph, hl, if_true, and_self]
    · simp only [Shared.step, hph, hl]; exact ⟨rfl, rfl⟩
  | finished r => simp only [Shared.step, hph, and_self]
  | running i => simp only [Shared.step, hph, and_self]

/-- As long as nobody panics, the contents are in order whenever nobody writes. -/
theorem tidy_val {P : α → Prop} (h0 : P s.val) (es : List (Event α)) :
    Tidy P part s es → (s.run part es).writer = none → P (s.run part es).val := by
  induction es using concatInd with
  | nil => exact fun _ _ => h0
  | snoc es e ih =>
    intro ht
    have ih := ih (tidy_init ht)
    rw [run_concat]
    cases e with
    | lock k => rw [(lock_val k).1, (lock_val k).2]; exact ih
    | encode k => rw [(encode_val k).1, (encode_val k).2]; exact ih
    | acquire w =>
      by_cases hc : ((s.run part es).writer.isNone && (s.run part es).readers.isEmpty) = true
      · simp only [Shared.step, hc, if_true]; intro h; cases h
      · simp only [Shared.step, hc]; exact ih
    | store w g =>
      by_cases hc : (s.run part es).writer = some w
      · simp only [Shared.step, hc, if_true]; intro h; cases h
      · simp only [Shared.step, hc]; exact ih
    | release w =>
      by_cases hc : (s.run part es).writer = some w
      · simp only [Shared.step, hc, if_true]; exact fun _ => ht.2 es [] w rfl hc
      · simp only [Shared.step, hc]; exact ih
    | panic w => exact absurd (by simp) (ht.1 w)

end Shared

/-! ## Steps of arrays and fields -/

theorem arraySteps_runs (t : Ty) (n : Nat) (v : (Ty.array t n).Val) :
    ∀ (l : List t.Val) (i : Nat) (o o' : Output) (r : Res EncErr Unit), v.1.drop i = l →
      Undisturbed (arraySteps t n) v i o r o' →
      encItems t.encode (fun i e => .badItem (.item i e)) i l o = (r, o')
  | [], i, o, o', r, hl, h => by
    have hn : v.1[i]? = none := by
      rw [List.getElem?_eq_none_iff]; exact List.drop_eq_nil_iff.1 hl
    cases h with
    | over _ => rfl
    | next hp => rw [arraySteps, hn] at hp; cases hp
    | stop hp => rw [arraySteps, hn] at hp; cases hp
  | x :: l, i, o, o', r, hl, h => by
    have hx : v.1[i]? = some x := by
      have := congrArg (·[0]?) hl
      simpa using this
    have hl' : v.1.drop (i + 1) = l := by
      have := congrArg List.tail hl
      simpa [List.tail_drop] using this
    have hs : arraySteps t n i v = some ((t.encode x).mapErr fun e => .badItem (.item i e)) := by
      rw [arraySteps, hx]; rfl
    show Enc.bind ((t.encode x).mapErr _) (fun _ => encItems _ _ (i + 1) l) o = _
    unfold Enc.bind
    cases h with
    | over hp => rw [hs] at hp; cases hp
    | next hp hm hu =>
      rw [hs] at hp; cases hp
      rw [hm]
      exact arraySteps_runs t n v l (i + 1) _ _ _ hl' hu
    | stop hp hm hr =>
      rw [hs] at hp; cases hp
      rw [hm]
      cases r with
      | ok u => exact absurd rfl hr
      | _ => rfl

theorem arraySteps_splits (t : Ty) (n : Nat) : Splits (arraySteps t n) (Ty.array t n).encode :=
  fun v o r o' h => arraySteps_runs t n v v.1 0 o o' r rfl h

theorem fieldSteps_shift {t : Ty} {fs : Fields} {g : EncErr → EncErr} {v : (Fields.cons t fs).Val}
    {i : Nat} {o o' : Output} {r : Res EncErr Unit}
    (h : Undisturbed (fieldSteps (.cons t fs) g) v (i + 1) o r o') :
    Undisturbed (fieldSteps fs g) v.2 i o r o' := by
  generalize hj : i + 1 = j at h
  induction h generalizing i with
  | over hp => subst hj; exact .over hp
  | next hp hm _ ih => subst hj; exact .next hp hm (ih rfl)
  | stop hp hm hr => subst hj; exact .stop hp hm hr

theorem fieldSteps_runs : ∀ (fs : Fields) (g : EncErr → EncErr) (v : fs.Val) (o o' : Output)
    (r : Res EncErr Unit), Undisturbed (fieldSteps fs g) v 0 o r o' → fs.encode g v o = (r, o')
  | .nil, g, v, o, o', r, h => by
    cases h with
    | over _ => rfl
    | next hp => cases hp
    | stop hp => cases hp
  | .cons t fs, g, v, o, o', r, h => by
    show Enc.bind ((t.encode v.1).mapErr g) (fun _ => fs.encode g v.2) o = _
    unfold Enc.bind
    cases h with
    | over hp => cases hp
    | next hp hm hu =>
      cases hp
      rw [hm]
      exact fieldSteps_runs fs g v.2 _ _ _ (fieldSteps_shift hu)
    | stop hp hm hr =>
      cases hp
      rw [hm]
      cases r with
      | ok u => exact absurd rfl hr
      | _ => rfl

/-! ## Atomics -/

theorem encItems_resume {α : Type} (enc : α → Enc Unit) (wrap : Nat → EncErr → EncErr) :
    ∀ (l l' : List α) (i : Nat) (o o1 : Output), encItems enc wrap i l o = (.ok (), o1) →
      encItems enc wrap i (l ++ l') o = encItems enc wrap (i + l.length) l' o1
  | [], l', i, o, o1, h => by cases h; rfl
  | x :: l, l', i, o, o1, h => by
    have h : Enc.bind ((enc x).mapErr (wrap i)) (fun _ => encItems enc wrap (i + 1) l) o
        = (.ok (), o1) := h
    show Enc.bind ((enc x).mapErr (wrap i)) (fun _ => encItems enc wrap (i + 1) (l ++ l')) o = _
    unfold Enc.bind at h ⊢
    cases hm : (enc x).mapErr (wrap i) o with
    | mk r o2 =>
      rw [hm] at h
      cases r with
      | ok u =>
        simp only at h ⊢
        rw [encItems_resume enc wrap l l' (i + 1) o2 o1 h, List.length_cons,
          show i + 1 + l.length = i + (l.length + 1) by omega]
      | err e => simp at h
      | panic p => simp at h
      | ub u => simp at h

theorem encItems_one {α : Type} {enc : α → Enc Unit} {wrap : Nat → EncErr → EncErr}
    {x : α} {i : Nat} {o o1 : Output} (h : (enc x).mapErr (wrap i) o = (.ok (), o1)) :
    encItems enc wrap i [x] o = (.ok (), o1) := by
  show Enc.bind ((enc x).mapErr (wrap i)) (fun _ => encItems enc wrap (i + 1) []) o = _
  unfold Enc.bind
  rw [h]
  rfl

theorem encItems_stop {α : Type} {enc : α → Enc Unit} {wrap : Nat → EncErr → EncErr}
    {x : α} {l : List α} {i : Nat} {o o1 : Output} {r : Res EncErr Unit}
    (h : (enc x).mapErr (wrap i) o = (r, o1)) (hr : r ≠ .ok ()) :
    encItems enc wrap i (x :: l) o = (r, o1) := by
  show Enc.bind ((enc x).mapErr (wrap i)) (fun _ => encItems enc wrap (i + 1) l) o = _
  unfold Enc.bind
  rw [h]
  cases r with
  | ok u => exact absurd rfl hr
  | _ => rfl

namespace Atomics
variable {t : Ty} {n : Nat}

theorem run_concat (s : Atomics t.Val) (es : List (AtomicEvent t.Val)) (e : AtomicEvent t.Val) :
    s.run n (es ++ [e]) = (s.run n es).step n e := by
  simp only [run, List.foldl_append, List.foldl_cons, List.foldl_nil]

/-- The values seen, by their places. -/
def Saw (s : Atomics t.Val) (seen : List Nat) (vs : List t.Val) : Prop :=
  vs.length = seen.length ∧
    ∀ i j, seen[i]? = some j → ∃ v, vs[i]? = some v ∧ (s.history i)[j]? = some v

/-- How the items are encoded. -/
abbrev items (t : Ty) (vs : List t.Val) : Enc Unit :=
  encItems (Ty.wrap .atomic t).encode (fun i e => .badItem (.item i e)) 0 vs

/-- Invariant of schedules. -/
structure Inv (n : Nat) (s : Atomics t.Val) : Prop where
  nonempty : ∀ l, s.history l ≠ []
  current : ∀ k o0 seen o, s.current k = some (o0, seen, o) → seen.length ≤ n ∧
    (∃ vs, s.Saw seen vs ∧ items t vs o0 = (.ok (), o)) ∧
    (∀ i j, seen[i]? = some j → j ≤ s.view k i) ∧
    ∀ d ∈ s.done, d.1 = k → ∀ i j j' : Nat, d.2.2.1[i]? = some j → seen[i]? = some j' → j ≤ j'
  done : ∀ d ∈ s.done, d.2.2.1.length ≤ n ∧
    (∃ vs ws, s.Saw d.2.2.1 vs ∧ vs.length + ws.length = n ∧
      (∀ i v, ws[i]? = some v → v ∈ s.history (vs.length + i)) ∧
      items t (vs ++ ws) d.2.1 = (d.2.2.2.1, d.2.2.2.2)) ∧
    ∀ i j, d.2.2.1[i]? = some j → j ≤ s.view d.1 i
  order : s.done.Pairwise fun d e => d.1 = e.1 →
    ∀ i j j' : Nat, d.2.2.1[i]? = some j → e.2.2.1[i]? = some j' → j ≤ j'
  /-- Views are within the history. -/
  view : ∀ k l, s.view k l < (s.history l).length

theorem Saw.mono {s s' : Atomics t.Val} {seen : List Nat} {vs : List t.Val} (h : s.Saw seen vs)
    (hh : ∀ l (j : Nat) v, (s.history l)[j]? = some v → (s'.history l)[j]? = some v) :
    s'.Saw seen vs :=
  ⟨h.1, fun i j hj => let ⟨v, h1, h2⟩ := h.2 i j hj; ⟨v, h1, hh _ _ _ h2⟩⟩

theorem getElem?_snoc {α : Type} {l : List α} {a b : α} {i : Nat} (h : (l ++ [a])[i]? = some b) :
    l[i]? = some b ∨ (i = l.length ∧ a = b) := by
  rcases Nat.lt_trichotomy i l.length with hi | hi | hi
  · left; rwa [List.getElem?_append_left hi] at h
  · subst hi
    right
    refine ⟨rfl, ?_⟩
    simpa using h
  · rw [List.getElem?_eq_none (by simp; omega)] at h; cases h

theorem Saw.snoc {s : Atomics t.Val} {seen : List Nat} {vs : List t.Val} {j : Nat} {v : t.Val}
    (h : s.Saw seen vs) (hv : (s.history seen.length)[j]? = some v) :
    s.Saw (seen ++ [j]) (vs ++ [v]) := by
  refine ⟨by simp [h.1], fun i j' hj => ?_⟩
  rcases getElem?_snoc hj with hj | ⟨rfl, rfl⟩
  · obtain ⟨w, h1, h2⟩ := h.2 i j' hj
    refine ⟨w, ?_, h2⟩
    rw [List.getElem?_append_left (List.getElem?_eq_some_iff.1 h1).1]
    exact h1
  · exact ⟨v, by rw [← h.1]; simp, hv⟩

theorem start_inv (init : Nat → t.Val) : (start init).Inv n where
  nonempty l := by simp [start]
  current k o0 seen o h := by cases h
  done d h := by cases h
  order := List.Pairwise.nil
  view k l := by simp [start]

/-- Other changes than to the encodings. -/
theorem Inv.grow {s s' : Atomics t.Val} (h : s.Inv n)
    (hh : ∀ l (j : Nat) v, (s.history l)[j]? = some v → (s'.history l)[j]? = some v)
    (hv : ∀ k l, s.view k l ≤ s'.view k l ∧ s'.view k l < (s'.history l).length)
    (hc : ∀ k x, s'.current k = some x → s.current k = some x)
    (hd : s'.done = s.done) : s'.Inv n where
  nonempty l := by
    intro he
    obtain ⟨v, hv⟩ : ∃ v, (s.history l)[0]? = some v := by
      cases hl : s.history l with
      | nil => exact absurd hl (h.nonempty l)
      | cons a _ => exact ⟨a, rfl⟩
    have := hh l 0 v hv
    rw [he] at this
    cases this
  current k o0 seen o hk := by
    obtain ⟨h1, ⟨vs, h2, h3⟩, h4, h5⟩ := h.current k o0 seen o (hc _ _ hk)
    rw [hd]
    exact ⟨h1, ⟨vs, h2.mono hh, h3⟩, fun i j hj => Nat.le_trans (h4 i j hj) (hv k i).1, h5⟩
  done d hm := by
    rw [hd] at hm
    obtain ⟨h1, ⟨vs, ws, h2, h3, h4, h5⟩, h6⟩ := h.done d hm
    refine ⟨h1, ⟨vs, ws, h2.mono hh, h3, fun i v hi => ?_, h5⟩,
      fun i j hj => Nat.le_trans (h6 i j hj) (hv _ i).1⟩
    obtain ⟨j, hj⟩ := List.mem_iff_getElem?.1 (h4 i v hi)
    exact List.mem_of_getElem? (hh _ _ _ hj)
  order := by rw [hd]; exact h.order
  view k l := (hv k l).2

/-- The thread `k` is over. -/
theorem Inv.finish {s : Atomics t.Val} (h : s.Inv n) (k : Nat) (o0 : Output) (seen : List Nat)
    (r : Res EncErr Unit) (o : Output) (hl : seen.length ≤ n)
    (hs : ∃ vs ws, s.Saw seen vs ∧ vs.length + ws.length = n ∧
      (∀ i v, ws[i]? = some v → v ∈ s.history (vs.length + i)) ∧ items t (vs ++ ws) o0 = (r, o))
    (hv : ∀ i j, seen[i]? = some j → j ≤ s.view k i)
    (hd : ∀ d ∈ s.done, d.1 = k → ∀ i j j' : Nat, d.2.2.1[i]? = some j → seen[i]? = some j' → j ≤ j') :
    Inv n { s with
      current := fun k' => if k' = k then none else s.current k'
      done := s.done ++ [(k, o0, seen, r, o)] } where
  nonempty := h.nonempty
  current k' o0' seen' o' hk := by
    by_cases hkk : k' = k
    · simp [hkk] at hk
    · simp only [hkk, if_false] at hk
      obtain ⟨h1, h2, h3, h4⟩ := h.current k' o0' seen' o' hk
      refine ⟨h1, h2, h3, fun d hm he => ?_⟩
      rcases List.mem_append.1 hm with hm | hm
      · exact h4 d hm he
      · obtain rfl := List.mem_singleton.1 hm
        exact absurd he.symm hkk
  done d hm := by
    rcases List.mem_append.1 hm with hm | hm
    · exact h.done d hm
    · obtain rfl := List.mem_singleton.1 hm
      exact ⟨hl, hs, hv⟩
  order := by
    refine List.pairwise_append.2 ⟨h.order, List.pairwise_singleton _ _, fun d hm e he hde => ?_⟩
    obtain rfl := List.mem_singleton.1 he
    exact hd d hm hde
  view := h.view

/-- The first values of the atomics from some place on. -/
theorem exists_rest (s : Atomics t.Val) (hn : ∀ l, s.history l ≠ []) : ∀ (m a : Nat),
    ∃ ws : List t.Val, ws.length = m ∧ ∀ i v, ws[i]? = some v → v ∈ s.history (a + i)
  | 0, a => ⟨[], rfl, fun i v h => by simp at h⟩
  | m + 1, a => by
    obtain ⟨ws, h1, h2⟩ := exists_rest s hn m (a + 1)
    obtain ⟨x, hx⟩ := List.exists_mem_of_ne_nil _ (hn a)
    refine ⟨x :: ws, by simp [h1], fun i v hi => ?_⟩
    cases i with
    | zero => cases hi; exact hx
    | succ i =>
      have := h2 i v hi
      rwa [show a + (i + 1) = a + 1 + i by omega]

theorem Inv.step {s : Atomics t.Val} (h : s.Inv n) (e : AtomicEvent t.Val) : (s.step n e).Inv n := by
  cases e with
  | store k l v =>
    refine h.grow (fun l' j w hj => ?_) (fun k' l' => ?_) (fun _ _ h => h) rfl
    · simp only [Atomics.step]
      by_cases hl : l' = l
      · subst hl
        rw [if_pos rfl, List.getElem?_append_left (List.getElem?_eq_some_iff.1 hj).1]
        exact hj
      · rw [if_neg hl]; exact hj
    · simp only [Atomics.step]
      have := h.view k' l'
      by_cases hl : l' = l
      · subst hl
        by_cases hk : k' = k
        · subst hk; simp; omega
        · simp [hk]; omega
      · simp [hl]; omega
  | start k o =>
    cases hc : s.current k with
    | some x => simp only [Atomics.step, hc]; exact h
    | none =>
      simp only [Atomics.step, hc]
      refine ⟨h.nonempty, fun k' o0 seen o' hk => ?_, h.done, h.order, h.view⟩
      by_cases hkk : k' = k
      · simp only [hkk, if_true, Option.some.injEq, Prod.mk.injEq] at hk
        obtain ⟨rfl, rfl, rfl⟩ := hk
        refine ⟨Nat.zero_le _, ⟨[], ⟨rfl, fun i j hj => by simp at hj⟩, rfl⟩, fun i j hj => by simp at hj,
          fun d hd he i j j' _ hj => by simp at hj⟩
      · simp only [hkk, if_false] at hk
        exact h.current k' o0 seen o' hk
  | next k j =>
    cases hc : s.current k with
    | none => simp only [Atomics.step, hc]; exact h
    | some x =>
      obtain ⟨o0, seen, o⟩ := x
      obtain ⟨h1, ⟨vs, h2, h3⟩, h4, h5⟩ := h.current k o0 seen o hc
      simp only [Atomics.step, hc]
      by_cases hl : seen.length = n
      · rw [if_pos hl]
        refine h.finish k o0 seen (.ok ()) o h1 ⟨vs, [], h2, ?_, fun i v hi => by simp at hi, ?_⟩ h4 h5
        · rw [h2.1, hl]; rfl
        · rw [List.append_nil]; exact h3
      · rw [if_neg hl]
        by_cases hj : j < s.view k seen.length
        · rw [if_pos hj]; exact h
        · rw [if_neg hj]
          cases hv : (s.history seen.length)[j]? with
          | none => exact h
          | some v =>
            simp only
            have hjl := (List.getElem?_eq_some_iff.1 hv).1
            -- the view moves first
            let s1 : Atomics t.Val :=
              { s with view := fun k' l' => if k' = k ∧ l' = seen.length then j else s.view k' l' }
            have g : s1.Inv n := by
              refine h.grow (fun _ _ _ h => h) (fun k' l' => ?_) (fun _ _ h => h) rfl
              show s.view k' l' ≤ (if k' = k ∧ l' = seen.length then j else s.view k' l') ∧
                (if k' = k ∧ l' = seen.length then j else s.view k' l') < (s.history l').length
              by_cases hkl : k' = k ∧ l' = seen.length
              · rw [if_pos hkl]
                obtain ⟨rfl, rfl⟩ := hkl
                omega
              · rw [if_neg hkl]
                exact ⟨Nat.le_refl _, h.view _ _⟩
            have hsaw : s1.Saw (seen ++ [j]) (vs ++ [v]) := Saw.snoc (s := s1) h2 hv
            have hview : ∀ i j', (seen ++ [j])[i]? = some j' → j' ≤ s1.view k i := by
              intro i j' hi
              show j' ≤ if k = k ∧ i = seen.length then j else s.view k i
              rcases getElem?_snoc hi with hi | ⟨rfl, rfl⟩
              · have hlt := (List.getElem?_eq_some_iff.1 hi).1
                rw [if_neg (by omega)]
                exact h4 i j' hi
              · simp
            have hdone : ∀ d ∈ s1.done, d.1 = k → ∀ i a a' : Nat, d.2.2.1[i]? = some a →
                (seen ++ [j])[i]? = some a' → a ≤ a' := by
              intro d hd he i a a' ha ha'
              rcases getElem?_snoc ha' with ha' | ⟨rfl, rfl⟩
              · exact h5 d hd he i a a' ha ha'
              · have := (h.done d hd).2.2 _ _ ha
                rw [he] at this
                omega
            cases hm : ((Ty.wrap .atomic t).encode v).mapErr
                (fun e => .badItem (.item seen.length e)) o with
            | mk r o' =>
              have hres : ∀ ws, items t (vs ++ (v :: ws)) o0
                  = encItems (Ty.wrap .atomic t).encode (fun i e => .badItem (.item i e))
                      seen.length (v :: ws) o := by
                intro ws
                have := encItems_resume (α := t.Val) (Ty.wrap .atomic t).encode
                  (fun i e => .badItem (.item i e)) vs (v :: ws) 0 o0 o h3
                rw [Nat.zero_add] at this
                exact h2.1 ▸ this
              by_cases hr : r = .ok ()
              · subst hr
                simp only
                refine ⟨g.nonempty, fun k' o0' seen' o'' hk => ?_, g.done, g.order, g.view⟩
                by_cases hkk : k' = k
                · subst hkk
                  simp only [if_true, Option.some.injEq, Prod.mk.injEq] at hk
                  obtain ⟨rfl, rfl, rfl⟩ := hk
                  refine ⟨by simp; omega, ⟨vs ++ [v], hsaw, ?_⟩, hview, hdone⟩
                  rw [hres]
                  exact encItems_one hm
                · simp only [hkk, if_false] at hk
                  exact g.current k' o0' seen' o'' hk
              · have key := g.finish k o0 (seen ++ [j]) r o' (by simp; omega)
                  (by
                    obtain ⟨ws, w1, w2⟩ := exists_rest s h.nonempty (n - (vs ++ [v]).length)
                      (vs ++ [v]).length
                    refine ⟨vs ++ [v], ws, hsaw, ?_, w2, ?_⟩
                    · have := h2.1
                      rw [w1, List.length_append, List.length_singleton]; omega
                    · rw [List.append_assoc, List.singleton_append, hres]
                      exact encItems_stop hm hr) hview hdone
                cases r with
                | ok u => exact absurd rfl hr
                | err e => exact key
                | panic p => exact key
                | ub u => exact key

theorem run_inv (init : Nat → t.Val) (es : List (AtomicEvent t.Val)) :
    ((start init).run n es).Inv n := by
  induction es using concatInd with
  | nil => exact start_inv init
  | snoc es e ih => rw [run_concat]; exact ih.step e

theorem step_history (s : Atomics t.Val) (e : AtomicEvent t.Val) (l : Nat) :
    (s.step n e).history l = s.history l ∨
      ∃ k v, e = .store k l v ∧ (s.step n e).history l = s.history l ++ [v] := by
  cases e with
  | store k l' v =>
    by_cases h : l = l'
    · subst h; exact .inr ⟨k, v, rfl, by simp [Atomics.step]⟩
    · left; simp [Atomics.step, h]
  | start k o =>
    left
    cases hc : s.current k <;> simp only [Atomics.step, hc]
  | next k j =>
    left
    cases hc : s.current k with
    | none => simp only [Atomics.step, hc]
    | some x =>
      obtain ⟨o0, seen, o⟩ := x
      simp only [Atomics.step, hc]
      split
      · rfl
      · split
        · rfl
        · split
          · rfl
          · split <;> rfl

theorem history_had (init : Nat → t.Val) (es : List (AtomicEvent t.Val)) (l : Nat) (v : t.Val) :
    v ∈ ((start init).run n es).history l → Had init es l v := by
  induction es using concatInd with
  | nil =>
    intro h
    exact .inl (by simpa [start, run] using h)
  | snoc es e ih =>
    rw [run_concat]
    have grow : Had init es l v → Had init (es ++ [e]) l v := by
      rintro (h | ⟨k, h⟩)
      · exact .inl h
      · exact .inr ⟨k, by simp [h]⟩
    rcases step_history ((start init).run n es) e l with h | ⟨k, w, rfl, h⟩
    · rw [h]; exact fun hm => grow (ih hm)
    · rw [h]
      intro hm
      rcases List.mem_append.1 hm with hm | hm
      · exact grow (ih hm)
      · obtain rfl := List.mem_singleton.1 hm
        exact .inr ⟨k, by simp⟩

/-! A thread that is alone -/

/-- Nothing is newer than what the thread `k` has seen. -/
structure UpToDate (s : Atomics t.Val) (k : Nat) (x : Nat → t.Val) : Prop where
  view : ∀ l, s.view k l + 1 = (s.history l).length
  last : ∀ l, (s.history l)[s.view k l]? = some (x l)

theorem run_cons (s : Atomics t.Val) (e : AtomicEvent t.Val) (es : List (AtomicEvent t.Val)) :
    s.run n (e :: es) = (s.step n e).run n es := rfl

theorem stores_upToDate (k : Nat) : ∀ (p : List (AtomicEvent t.Val)) (s : Atomics t.Val)
    (x : Nat → t.Val), s.UpToDate k x → s.current k = none → s.done = [] →
    (∀ e ∈ p, ∃ l v, e = .store k l v) →
    (s.run n p).UpToDate k (valuesAfter x p) ∧ (s.run n p).current k = none ∧ (s.run n p).done = []
  | [], s, x, h, hc, hd, _ => ⟨h, hc, hd⟩
  | e :: p, s, x, h, hc, hd, hp => by
    obtain ⟨l, v, rfl⟩ := hp e (by simp)
    rw [run_cons]
    refine stores_upToDate k p _ _ ⟨fun l' => ?_, fun l' => ?_⟩ hc hd fun e he => hp e (by simp [he])
    · by_cases hl : l' = l
      · subst hl; simp [Atomics.step]
      · simp [Atomics.step, hl, h.view l']
    · by_cases hl : l' = l
      · subst hl; simp [Atomics.step]
      · simp [Atomics.step, hl, h.last l']

/-- Invariant of the thread `k` while nobody stores: it has seen the values `x`. -/
structure Alone (n : Nat) (s : Atomics t.Val) (k : Nat) (x : Nat → t.Val) : Prop where
  upToDate : s.UpToDate k x
  current : ∀ o0 seen o, s.current k = some (o0, seen, o) → seen.length ≤ n ∧
    items t ((List.range seen.length).map x) o0 = (.ok (), o)
  done : ∀ d ∈ s.done, d.1 = k → items t ((List.range n).map x) d.2.1 = (d.2.2.2.1, d.2.2.2.2)

theorem Alone.step {s : Atomics t.Val} {k : Nat} {x : Nat → t.Val} (h : s.Alone n k x)
    (e : AtomicEvent t.Val) (he : ∀ k l v, e ≠ .store k l v) : (s.step n e).Alone n k x := by
  cases e with
  | store k' l v => exact absurd rfl (he k' l v)
  | start k' o =>
    cases hc : s.current k' with
    | some y => simp only [Atomics.step, hc]; exact h
    | none =>
      simp only [Atomics.step, hc]
      refine ⟨⟨h.upToDate.view, h.upToDate.last⟩, fun o0 seen o' hk => ?_, h.done⟩
      by_cases hkk : k = k'
      · simp only [hkk, if_true, Option.some.injEq, Prod.mk.injEq] at hk
        obtain ⟨rfl, rfl, rfl⟩ := hk
        exact ⟨Nat.zero_le _, rfl⟩
      · simp only [hkk, if_false] at hk
        exact h.current o0 seen o' hk
  | next k' j =>
    cases hc : s.current k' with
    | none => simp only [Atomics.step, hc]; exact h
    | some y =>
      obtain ⟨o0, seen, o⟩ := y
      simp only [Atomics.step, hc]
      by_cases hl : seen.length = n
      · rw [if_pos hl]
        refine ⟨⟨h.upToDate.view, h.upToDate.last⟩, fun o0' seen' o' hk => ?_, fun d hd hdk => ?_⟩
        · by_cases hkk : k = k'
          · simp [hkk] at hk
          · simp only [hkk, if_false] at hk
            exact h.current o0' seen' o' hk
        · rcases List.mem_append.1 hd with hd | hd
          · exact h.done d hd hdk
          · obtain rfl := List.mem_singleton.1 hd
            simp only at hdk
            subst hdk
            have := (h.current o0 seen o hc).2
            rwa [hl] at this
      · rw [if_neg hl]
        by_cases hj : j < s.view k' seen.length
        · rw [if_pos hj]; exact h
        · rw [if_neg hj]
          cases hv : (s.history seen.length)[j]? with
          | none => exact h
          | some v =>
            simp only
            have hjl := (List.getElem?_eq_some_iff.1 hv).1
            by_cases hkk : k' = k
            · subst hkk
              have hjv : j = s.view k' seen.length := by
                have := h.upToDate.view seen.length
                omega
              subst hjv
              have hvx : v = x seen.length := by
                have := h.upToDate.last seen.length
                rw [hv] at this
                exact Option.some.inj this
              subst hvx
              have hview : (fun (a : Nat) (l : Nat) => if a = k' ∧ l = seen.length then
                  s.view k' seen.length else s.view a l) = s.view := by
                funext a l
                by_cases hal : a = k' ∧ l = seen.length
                · rw [if_pos hal, hal.1, hal.2]
                · rw [if_neg hal]
              rw [hview]
              obtain ⟨hle, hcur⟩ := h.current o0 seen o hc
              have hres : ∀ ws, items t ((List.range seen.length).map x ++ (x seen.length :: ws)) o0
                  = encItems (Ty.wrap .atomic t).encode (fun i e => .badItem (.item i e))
                      seen.length (x seen.length :: ws) o := by
                intro ws
                have := encItems_resume (α := t.Val) (Ty.wrap .atomic t).encode
                  (fun i e => .badItem (.item i e)) ((List.range seen.length).map x)
                  (x seen.length :: ws) 0 o0 o hcur
                rw [Nat.zero_add, List.length_map, List.length_range] at this
                exact this
              cases hm : ((Ty.wrap .atomic t).encode (x seen.length)).mapErr
                  (fun e => .badItem (.item seen.length e)) o with
              | mk r o' =>
                by_cases hr : r = .ok ()
                · subst hr
                  simp only
                  refine ⟨⟨h.upToDate.view, h.upToDate.last⟩, fun o0' seen' o'' hk => ?_, h.done⟩
                  simp only [if_true, Option.some.injEq, Prod.mk.injEq] at hk
                  obtain ⟨rfl, rfl, rfl⟩ := hk
                  refine ⟨by simp; omega, ?_⟩
                  rw [List.length_append, List.length_singleton, List.range_succ, List.map_append,
                    List.map_singleton, hres]
                  exact encItems_one hm
                · have key : Alone n
                      { s with
                        current := fun k'' => if k'' = k' then none else s.current k''
                        done := s.done ++ [(k', o0, seen ++ [s.view k' seen.length], r, o')] } k' x := by
                    refine ⟨⟨h.upToDate.view, h.upToDate.last⟩, fun o0' seen' o'' hk => ?_,
                      fun d hd hdk => ?_⟩
                    · simp at hk
                    · rcases List.mem_append.1 hd with hd | hd
                      · exact h.done d hd hdk
                      · obtain rfl := List.mem_singleton.1 hd
                        have e : (List.range n).map x = (List.range seen.length).map x
                            ++ (x seen.length :: ((List.range' (seen.length + 1)
                              (n - seen.length - 1)).map x)) := by
                          rw [← List.map_cons, ← List.map_append, List.range_eq_range',
                            List.range_eq_range', ← List.range'_succ]
                          congr 1
                          have : n = seen.length + (n - seen.length - 1 + 1) := by omega
                          conv => lhs; rw [this]
                          rw [← List.range'_append_1, Nat.zero_add]
                        rw [e, hres]
                        exact encItems_stop hm hr
                  cases r with
                  | ok u => exact absurd rfl hr
                  | err e => exact key
                  | panic p => exact key
                  | ub u => exact key
            · have hup : ∀ s' : Atomics t.Val, s'.history = s.history →
                  (∀ l, s'.view k l = s.view k l) → s'.UpToDate k x := by
                intro s' h1 h2
                exact ⟨fun l => by rw [h1, h2]; exact h.upToDate.view l,
                  fun l => by rw [h1, h2]; exact h.upToDate.last l⟩
              have hne : ¬ k = k' := fun h => hkk h.symm
              cases hm : ((Ty.wrap .atomic t).encode v).mapErr
                  (fun e => .badItem (.item seen.length e)) o with
              | mk r o' =>
                by_cases hr : r = .ok ()
                · subst hr
                  simp only
                  refine ⟨hup _ rfl fun l => by simp [hne], fun o0' seen' o'' hk => ?_, h.done⟩
                  simp only [hne, if_false] at hk
                  exact h.current o0' seen' o'' hk
                · have key : Alone n
                      { s with
                        view := fun a l => if a = k' ∧ l = seen.length then j else s.view a l
                        current := fun k'' => if k'' = k' then none else s.current k''
                        done := s.done ++ [(k', o0, seen ++ [j], r, o')] } k x := by
                    refine ⟨hup _ rfl fun l => by simp [hne], fun o0' seen' o'' hk => ?_,
                      fun d hd hdk => ?_⟩
                    · simp only [hne, if_false] at hk
                      exact h.current o0' seen' o'' hk
                    · rcases List.mem_append.1 hd with hd | hd
                      · exact h.done d hd hdk
                      · obtain rfl := List.mem_singleton.1 hd
                        exact absurd hdk hkk
                  cases r with
                  | ok u => exact absurd rfl hr
                  | err e => exact key
                  | panic p => exact key
                  | ub u => exact key

theorem alone_run (k : Nat) (x : Nat → t.Val) : ∀ (q : List (AtomicEvent t.Val)) (s : Atomics t.Val),
    s.Alone n k x → (∀ e ∈ q, ∀ k l v, e ≠ .store k l v) → (s.run n q).Alone n k x
  | [], _, h, _ => h
  | e :: q, s, h, hq => by
    rw [run_cons]
    exact alone_run k x q _ (h.step e (hq e (by simp))) fun e he => hq e (by simp [he])

theorem run_append (s : Atomics t.Val) (p q : List (AtomicEvent t.Val)) :
    s.run n (p ++ q) = (s.run n p).run n q := by
  simp only [run, List.foldl_append]

end Atomics
end Oct
