import Verif.Proofs.Encode
import Verif.Spec.Sender
/-
Packing values into datagrams.
-/
namespace Oct
open Spec

namespace Spec

theorem octetsOf_append (a b : List (Sigma Ty.Val)) : octetsOf (a ++ b) = octetsOf a ++ octetsOf b := by
  induction a with
  | nil => rfl
  | cons x a ih => rw [List.cons_append, octetsOf, octetsOf, ih, List.append_assoc]

theorem octetsOf_singleton (x : Sigma Ty.Val) : octetsOf [x] = wire x.1 x.2 := List.append_nil _

theorem Divided.snoc_has {α : Type} {P : α → Prop} {x : α} {xs ys ns : List α} (h : Divided P xs ys ns) (hx : P x) :
    Divided P (xs ++ [x]) (ys ++ [x]) ns := by
  induction h with
  | nil => exact .has hx .nil
  | has h _ ih => exact .has h ih
  | lacks h _ ih => exact .lacks h ih

theorem Divided.snoc_lacks {α : Type} {P : α → Prop} {x : α} {xs ys ns : List α} (h : Divided P xs ys ns)
    (hx : ¬ P x) : Divided P (xs ++ [x]) ys (ns ++ [x]) := by
  induction h with
  | nil => exact .lacks hx .nil
  | has h _ ih => exact .has h ih
  | lacks h _ ih => exact .lacks h ih

theorem Divided.all {α : Type} {P : α → Prop} {xs ys ns : List α} (h : Divided P xs ys ns) (hx : ∀ x ∈ xs, P x) :
    ys = xs ∧ ns = [] := by
  induction h with
  | nil => exact ⟨rfl, rfl⟩
  | has h _ ih =>
    obtain ⟨h1, h2⟩ := ih fun x hm => hx x (List.mem_cons_of_mem _ hm)
    exact ⟨congrArg _ h1, h2⟩
  | lacks h _ _ => exact absurd (hx _ List.mem_cons_self) h

/-- No group has room for the value that begins the next. -/
def Tight (cap : Nat) : List (List (Sigma Ty.Val)) → Prop
  | g :: h :: gs => (∀ x, h.head? = some x → cap < (octetsOf (g ++ [x])).length) ∧ Tight cap (h :: gs)
  | _ => True

theorem Tight.snoc {cap : Nat} {c : List (Sigma Ty.Val)} {x : Sigma Ty.Val}
    (hx : cap < (octetsOf (c ++ [x])).length) : ∀ {gs : List (List (Sigma Ty.Val))}, Tight cap (gs ++ [c]) →
    Tight cap (gs ++ [c] ++ [[x]])
  | [], _ => ⟨fun y hy => by cases hy; exact hx, trivial⟩
  | [_], h => ⟨h.1, Tight.snoc (gs := []) hx h.2⟩
  | _ :: g :: gs, h => ⟨h.1, Tight.snoc (gs := g :: gs) hx h.2⟩

theorem Tight.grow {cap : Nat} {c : List (Sigma Ty.Val)} {x : Sigma Ty.Val} (hc : c ≠ []) :
    ∀ {gs : List (List (Sigma Ty.Val))}, Tight cap (gs ++ [c]) → Tight cap (gs ++ [c ++ [x]])
  | [], _ => trivial
  | [_], h => by
    refine ⟨fun y hy => h.1 y ?_, trivial⟩
    cases c with
    | nil => exact absurd rfl hc
    | cons a c => exact hy
  | _ :: g :: gs, h => ⟨h.1, Tight.grow (gs := g :: gs) hc h.2⟩

theorem Tight.fewest {cap : Nat} : ∀ (gs other : List (List (Sigma Ty.Val))) (pre : List (Sigma Ty.Val)),
    Tight cap gs → (∀ g ∈ gs, g ≠ []) → (∀ g ∈ other, (octetsOf g).length ≤ cap) →
    other.flatten = pre ++ gs.flatten → gs.length ≤ other.length
  | [], _, _, _, _, _, _ => Nat.zero_le _
  | g :: gs, [], pre, _, hn, _, he => by
    have := (List.append_eq_nil_iff.mp he.symm).2
    rw [List.flatten_cons, List.append_eq_nil_iff] at this
    exact absurd this.1 (hn g List.mem_cons_self)
  | g :: gs, h :: other, pre, ht, hn, hl, he => by
    rw [List.flatten_cons, List.flatten_cons, ← List.append_assoc] at he
    have hlen : h.length ≤ (pre ++ g).length := by
      apply Nat.not_lt.mp
      intro hlt
      have hp : pre ++ g <+: h := List.prefix_of_prefix_length_le ⟨gs.flatten, rfl⟩ (he ▸ ⟨other.flatten, rfl⟩)
        (Nat.le_of_lt hlt)
      obtain ⟨r, rfl⟩ := hp
      rw [List.append_assoc (pre ++ g)] at he
      have he := List.append_cancel_left he
      cases r with
      | nil => simp at hlt
      | cons y r =>
        match gs, ht, hn, he with
        | [], _, _, he => cases he
        | k :: gs, ht, hn, he =>
          cases k with
          | nil => exact hn [] (by simp) rfl
          | cons z k =>
            have hz : y = z := (List.cons.inj he).1
            subst hz
            have h1 := ht.1 y rfl
            have h2 := hl _ List.mem_cons_self
            have e : pre ++ g ++ y :: r = pre ++ (g ++ [y]) ++ r := by simp
            rw [e, octetsOf_append, octetsOf_append, List.length_append, List.length_append] at h2
            omega
    have hp : h <+: pre ++ g := List.prefix_of_prefix_length_le ⟨other.flatten, rfl⟩ (he ▸ ⟨gs.flatten, rfl⟩) hlen
    obtain ⟨r, hr⟩ := hp
    rw [← hr, List.append_assoc] at he
    have he := List.append_cancel_left he
    have ht' : Tight cap gs := by
      cases gs with
      | nil => trivial
      | cons k gs => exact ht.2
    exact Nat.succ_le_succ (Tight.fewest gs other r ht' (fun g hg => hn g (List.mem_cons_of_mem _ hg))
      (fun g hg => hl g (List.mem_cons_of_mem _ hg)) he)

end Spec

namespace Sender

/-- The buffer holds these values. -/
structure Holds (cap : Nat) (s : Sender) (cur : List (Sigma Ty.Val)) : Prop where
  size : s.buf.length = cap
  used : s.used = (octetsOf cur).length
  le : s.used ≤ cap
  octets : s.buf.take s.used = octetsOf cur
  count : s.count = cur.length

theorem put_spec {cap : Nat} {s : Sender} {cur : List (Sigma Ty.Val)} (h : Holds cap s cur) (x : Sigma Ty.Val) :
    ∃ r s', s.put x = (r, s') ∧ s'.sent = s.sent ∧ s'.refused = s.refused ∧
      (Sendable (cap - s.used) x → r = .ok () ∧ Holds cap s' (cur ++ [x])) ∧
      (¬ Sendable (cap - s.used) x → r ≠ .ok () ∧ Holds cap s' cur) ∧
      (Encodable x.1 x.2 → cap - s.used < (wire x.1 x.2).length → r = .panic .shortOutput) := by
  obtain ⟨w', r, hE, hr, hw⟩ := Ty.encode_encodes x.1 x.2
  have hwf : (Output.new (s.buf.drop s.used)).WF := Nat.zero_le _
  have hrem : (Output.new (s.buf.drop s.used)).remaining = cap - s.used := by
    show (s.buf.drop s.used).length - 0 = _
    rw [List.length_drop, h.size, Nat.sub_zero]
  obtain ⟨h1, h2⟩ := hE _ hwf
  rw [hrem] at h1 h2
  have hput : ∀ w : List Byte, (Output.new (s.buf.drop s.used)).put w =
      ⟨w ++ s.buf.drop (s.used + w.length), w.length⟩ := by
    intro w
    unfold Output.put Output.new
    simp only [List.take_zero, List.nil_append, Nat.zero_add, List.drop_drop]
  have hhold : ∀ w : List Byte, w.length ≤ cap - s.used →
      Holds cap { s with buf := s.buf.take s.used ++ (w ++ s.buf.drop (s.used + w.length)) } cur := by
    intro w hl
    have hle := h.le
    refine ⟨?_, h.used, h.le, ?_, h.count⟩
    · show (s.buf.take s.used ++ (w ++ s.buf.drop (s.used + w.length))).length = cap
      rw [List.length_append, List.length_append, List.length_take, List.length_drop, h.size]
      omega
    · show (s.buf.take s.used ++ (w ++ s.buf.drop (s.used + w.length))).take s.used = _
      rw [List.take_left' (by rw [List.length_take, h.size]; omega)]
      exact h.octets
  by_cases hfit : w'.length ≤ cap - s.used
  · have e := h1 hfit
    rw [hput] at e
    by_cases hok : r = .ok ()
    · have hEnc := hr.mp hok
      have hw := hw hEnc
      subst hok
      refine ⟨.ok (), { s with
          buf := s.buf.take s.used ++ (w' ++ s.buf.drop (s.used + w'.length)),
          used := s.used + w'.length, count := s.count + 1 }, by rw [put, e]; rfl, rfl, rfl,
        fun _ => ⟨rfl, ?_⟩, fun hn => absurd ⟨hEnc, hw ▸ hfit⟩ hn,
        fun _ hl => by rw [← hw] at hl; omega⟩
      have hle := h.le
      have := h.size
      have hu : s.used + w'.length = (octetsOf (cur ++ [x])).length := by
        rw [octetsOf_append, octetsOf_singleton, List.length_append, ← h.used, hw]
      refine ⟨(hhold w' hfit).size, hu, ?_, ?_, ?_⟩
      · show s.used + w'.length ≤ cap
        omega
      · show (s.buf.take s.used ++ (w' ++ s.buf.drop (s.used + w'.length))).take (s.used + w'.length) = _
        rw [← List.append_assoc, List.take_left' (by rw [List.length_append, List.length_take, h.size]; omega),
          h.octets, octetsOf_append, octetsOf_singleton, hw]
      · show s.count + 1 = _
        rw [h.count, List.length_append]
        rfl
    · refine ⟨r, { s with buf := s.buf.take s.used ++ (w' ++ s.buf.drop (s.used + w'.length)) }, ?_, rfl, rfl,
        fun hs => absurd (hr.mpr hs.1) hok, fun _ => ⟨hok, hhold w' hfit⟩,
        fun hEnc _ => absurd (hr.mpr hEnc) hok⟩
      rw [put, e]
      cases r with
      | ok a => exact absurd rfl hok
      | err _ => rfl
      | panic _ => rfl
      | ub _ => rfl
  · obtain ⟨w, _, hl, e⟩ := h2 (by omega)
    rw [hput] at e
    refine ⟨.panic .shortOutput, { s with buf := s.buf.take s.used ++ (w ++ s.buf.drop (s.used + w.length)) },
      by rw [put, e], rfl, rfl, fun hs => ?_, fun _ => ⟨(fun h => nomatch h), hhold w hl⟩, fun _ _ => rfl⟩
    rw [hw hs.1] at hfit
    exact absurd hs.2 hfit

theorem flush_spec {cap : Nat} {s : Sender} {cur : List (Sigma Ty.Val)} (h : Holds cap s cur) :
    Holds cap s.flush [] ∧ s.flush.refused = s.refused ∧ s.flush.used = 0 ∧
      s.flush.sent = s.sent ++ if cur = [] then [] else [octetsOf cur] := by
  unfold flush
  by_cases hc : cur = []
  · subst hc
    rw [if_pos (show s.count = 0 from h.count), if_pos rfl, List.append_nil]
    exact ⟨h, rfl, h.used, rfl⟩
  · have : s.count ≠ 0 := by
      rw [h.count]
      exact fun e => hc (List.eq_nil_of_length_eq_zero e)
    rw [if_neg this, if_neg hc, ← h.octets]
    exact ⟨⟨h.size, rfl, Nat.zero_le _, rfl, rfl⟩, rfl, rfl, rfl⟩

/-- After these values. -/
structure After (cap : Nat) (xs : List (Sigma Ty.Val)) (s : Sender) (gs : List (List (Sigma Ty.Val)))
    (cur : List (Sigma Ty.Val)) : Prop where
  holds : Holds cap s cur
  divided : Divided (Sendable cap) xs (gs.flatten ++ cur) s.refused
  sent : s.sent = gs.map octetsOf
  groups : Groups cap gs
  tight : (∀ x ∈ xs, Sendable cap x) → Tight cap (gs ++ [cur]) ∧ (cur = [] → gs = [])

theorem divided_length {α : Type} {P : α → Prop} {xs ys ns : List α} (h : Divided P xs ys ns) :
    ys.length ≤ xs.length := by
  induction h with
  | nil => exact Nat.le_refl _
  | has _ _ ih => exact Nat.succ_le_succ ih
  | lacks _ _ ih => exact Nat.le_succ_of_le ih

theorem le_sum {n : Nat} {l : List Nat} (h : n ∈ l) : n ≤ l.sum := by
  induction l with
  | nil => cases h
  | cons a l ih =>
    rw [List.sum_cons]
    rcases List.mem_cons.mp h with rfl | h
    · omega
    · have := ih h
      omega

theorem sendable_less {cap n : Nat} {x : Sigma Ty.Val} (h : Sendable (cap - n) x) : Sendable cap x :=
  ⟨h.1, by have := h.2; omega⟩

theorem offer_spec {cap : Nat} {xs : List (Sigma Ty.Val)} {s : Sender} {gs : List (List (Sigma Ty.Val))}
    {cur : List (Sigma Ty.Val)} (h : After cap xs s gs cur) (x : Sigma Ty.Val) :
    ∃ gs' cur', After cap (xs ++ [x]) (s.offer x) gs' cur' := by
  obtain ⟨r, s1, e1, hs1, hr1, hyes, hno, hshort⟩ := put_spec h.holds x
  have refuse : ∀ {s' : Sender}, Holds cap s' cur → s'.sent = s.sent → s'.refused = s.refused →
      ¬ Sendable cap x → After cap (xs ++ [x]) { s' with refused := s'.refused ++ [x] } gs cur := by
    intro s' hh hs hr hn
    refine ⟨⟨hh.size, hh.used, hh.le, hh.octets, hh.count⟩, ?_, hs.trans h.sent, h.groups, fun ha => ?_⟩
    · show Divided _ _ _ (s'.refused ++ [x])
      rw [hr]
      exact h.divided.snoc_lacks hn
    · exact absurd (ha x (List.mem_append_right _ List.mem_cons_self)) hn
  by_cases hy : Sendable (cap - s.used) x
  · obtain ⟨rfl, hh⟩ := hyes hy
    refine ⟨gs, cur ++ [x], ?_⟩
    rw [show s.offer x = s1 by rw [offer, e1]]
    refine ⟨hh, ?_, hs1.trans h.sent, h.groups, fun ha => ?_⟩
    · rw [hr1, ← List.append_assoc]
      exact h.divided.snoc_has (sendable_less hy)
    · obtain ⟨ht, hc⟩ := h.tight fun y hm => ha y (List.mem_append_left _ hm)
      refine ⟨?_, fun e => absurd e (by simp)⟩
      by_cases hcur : cur = []
      · rw [hc hcur]; trivial
      · exact ht.grow hcur
  · obtain ⟨hne, hh⟩ := hno hy
    by_cases hp : r = .panic .shortOutput
    · subst hp
      obtain ⟨hf, hfr, hfu, hfs⟩ := flush_spec hh
      obtain ⟨r2, s2, e2, hs2, hr2, hyes2, hno2, _⟩ := put_spec hf x
      rw [hfu, Nat.sub_zero] at hyes2 hno2
      have hgr : Groups cap (gs ++ if cur = [] then [] else [cur]) := by
        intro g hg
        rcases List.mem_append.mp hg with hg | hg
        · exact h.groups g hg
        · split at hg
          · cases hg
          · next hc =>
            rw [List.mem_singleton.mp hg]
            have := hh.le
            rw [hh.used] at this
            exact ⟨hc, this⟩
      have hfl : (gs ++ if cur = [] then [] else [cur]).flatten = gs.flatten ++ cur := by
        rw [List.flatten_append]
        split
        · next hc => rw [hc]; rfl
        · simp
      have hsent : s2.sent = (gs ++ if cur = [] then [] else [cur]).map octetsOf := by
        rw [hs2, hfs, hs1, h.sent, List.map_append]
        congr 1
        split <;> rfl
      by_cases hy2 : Sendable cap x
      · obtain ⟨rfl, hh2⟩ := hyes2 hy2
        refine ⟨gs ++ if cur = [] then [] else [cur], [x], ?_⟩
        rw [show s.offer x = s2 by rw [offer, e1]; simp only; rw [e2]]
        refine ⟨hh2, ?_, hsent, hgr, fun ha => ⟨?_, fun e => absurd e (by simp)⟩⟩
        · rw [hfl, hr2, hfr, hr1]
          exact h.divided.snoc_has hy2
        · obtain ⟨ht, hc⟩ := h.tight fun y hm => ha y (List.mem_append_left _ hm)
          by_cases hcur : cur = []
          · rw [if_pos hcur, List.append_nil, hc hcur]; trivial
          · rw [if_neg hcur]
            refine ht.snoc ?_
            rw [octetsOf_append, octetsOf_singleton, List.length_append, ← h.holds.used]
            have := h.holds.le
            have : ¬ (wire x.1 x.2).length ≤ cap - s.used := fun hl => hy ⟨hy2.1, hl⟩
            omega
      · obtain ⟨hne2, hh2⟩ := hno2 hy2
        refine ⟨gs ++ if cur = [] then [] else [cur], [], ?_⟩
        have e : s.offer x = { s2 with refused := s2.refused ++ [x] } := by
          rw [offer, e1]
          simp only
          rw [e2]
          cases r2 with
          | ok a => exact absurd rfl hne2
          | err _ => rfl
          | panic _ => rfl
          | ub _ => rfl
        rw [e]
        refine ⟨⟨hh2.size, hh2.used, hh2.le, hh2.octets, hh2.count⟩, ?_, hsent, hgr, fun ha => ?_⟩
        · show Divided _ _ _ (s2.refused ++ [x])
          rw [hfl, List.append_nil, hr2, hfr, hr1]
          exact h.divided.snoc_lacks hy2
        · exact absurd (ha x (List.mem_append_right _ List.mem_cons_self)) hy2
    · refine ⟨gs, cur, ?_⟩
      have hn : ¬ Sendable cap x := by
        intro hs
        refine hp (hshort hs.1 ?_)
        exact Nat.not_le.mp fun hl => hy ⟨hs.1, hl⟩
      have e : s.offer x = { s1 with refused := s1.refused ++ [x] } := by
        rw [offer, e1]
        cases r with
        | ok a => exact absurd rfl hne
        | err _ => rfl
        | panic p => cases p <;> first | rfl | exact absurd rfl hp
        | ub _ => rfl
      rw [e]
      exact refuse hh hs1 hr1 hn

theorem foldl_spec {cap : Nat} : ∀ (ys xs : List (Sigma Ty.Val)) (s : Sender) (gs : List (List (Sigma Ty.Val)))
    (cur : List (Sigma Ty.Val)), After cap xs s gs cur → ∃ gs' cur', After cap (xs ++ ys) (ys.foldl offer s) gs' cur'
  | [], xs, s, gs, cur, h => ⟨gs, cur, by rw [List.append_nil]; exact h⟩
  | y :: ys, xs, s, gs, cur, h => by
    obtain ⟨gs1, cur1, h1⟩ := offer_spec h y
    obtain ⟨gs2, cur2, h2⟩ := foldl_spec ys _ _ _ _ h1
    exact ⟨gs2, cur2, by rw [List.append_assoc] at h2; exact h2⟩

theorem pack_spec (buf : List Byte) (xs : List (Sigma Ty.Val)) :
    ∃ gs, Divided (Sendable buf.length) xs gs.flatten (pack buf xs).refused ∧ (pack buf xs).sent = gs.map octetsOf ∧
      Groups buf.length gs ∧ ((∀ x ∈ xs, Sendable buf.length x) → Tight buf.length gs) := by
  have h0 : After buf.length [] ⟨buf, 0, 0, [], []⟩ [] [] :=
    ⟨⟨rfl, rfl, Nat.zero_le _, rfl, rfl⟩, .nil, rfl, (fun _ h => nomatch h), fun _ => ⟨trivial, fun _ => rfl⟩⟩
  obtain ⟨gs, cur, h⟩ := foldl_spec xs [] _ _ _ h0
  obtain ⟨_, hr, _, hs⟩ := flush_spec h.holds
  rw [h.sent] at hs
  rw [List.nil_append] at h
  by_cases hc : cur = []
  · subst hc
    refine ⟨gs, ?_, ?_, h.groups, fun ha => ?_⟩
    · unfold pack
      rw [hr]
      have := h.divided
      rwa [List.append_nil] at this
    · unfold pack
      rw [hs, if_pos rfl, List.append_nil]
    · rw [(h.tight ha).2 rfl]; trivial
  · refine ⟨gs ++ [cur], ?_, ?_, ?_, fun ha => (h.tight ha).1⟩
    · unfold pack
      rw [hr, List.flatten_append]
      have := h.divided
      simpa using this
    · unfold pack
      rw [hs, if_neg hc, List.map_append]
      rfl
    · intro g hg
      rcases List.mem_append.mp hg with hg | hg
      · exact h.groups g hg
      · rw [List.mem_singleton.mp hg]
        have := h.holds.le
        rw [h.holds.used] at this
        exact ⟨hc, this⟩

end Sender
end Oct
