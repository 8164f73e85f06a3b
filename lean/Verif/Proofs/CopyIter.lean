import Verif.Model.CopyIter
import Verif.Proofs.SizedIter
import Verif.Spec.CopyIter
/- Iterators of plain data: what they give, and how they compare with those of items that are moved. -/
namespace Oct
open Spec
variable {α : Type}

namespace SizedIter

/-- One operation on an iterator over plain data, panics of indexing being caught. -/
def stepCopy (checks : Bool) (it : SizedIter α) : CopyOp α → Res Empty (DequeOut α × SizedIter α)
  | .front => it.nextCopy.map fun (a, it') => (.item a, it')
  | .back => it.nextBackCopy.map fun (a, it') => (.item a, it')
  | .set i a =>
    match it.setIndex i a with
    | .ok it' => .ok (.unit, it')
    | .panic _ => .ok (.panicked, it)
    | .ub u => .ub u
  | .nth k => (it.nthCopy checks k).map fun (a, it') => (.item a, it')

/-- A history of operations on an iterator over plain data. -/
def runCopy (checks : Bool) (it : SizedIter α) :
    List (CopyOp α) → Res Empty (List (DequeOut α) × SizedIter α)
  | [] => .ok ([], it)
  | op :: ops =>
    match it.stepCopy checks op with
    | .ok (out, it') => (it'.runCopy checks ops).map fun (outs, it'') => (out :: outs, it'')
    | .panic p => .panic p
    | .ub u => .ub u

/-- One operation on an iterator over items that are moved, panics of indexing being caught. -/
def stepMove (checks : Bool) (it : SizedIter α) : CopyOp α → Res Empty (DequeOut α × SizedIter α)
  | .front => it.next.map fun (a, it') => (.item a, it')
  | .back => it.nextBack.map fun (a, it') => (.item a, it')
  | .set i a =>
    match it.setIndex i a with
    | .ok it' => .ok (.unit, it')
    | .panic _ => .ok (.panicked, it)
    | .ub u => .ub u
  | .nth k => (it.nth checks k).map fun (a, it') => (.item a, it')

/-- A history of operations on an iterator over items that are moved. -/
def runMove (checks : Bool) (it : SizedIter α) :
    List (CopyOp α) → Res Empty (List (DequeOut α) × SizedIter α)
  | [] => .ok ([], it)
  | op :: ops =>
    match it.stepMove checks op with
    | .ok (out, it') => (it'.runMove checks ops).map fun (outs, it'') => (out :: outs, it'')
    | .panic p => .panic p
    | .ub u => .ub u

/-- The iterator is where the tape is, and its buffer starts with the tape's items and no others. -/
structure OnTape (it : SizedIter α) (t : Tape α) : Prop where
  pos : it.pos = t.place
  len : it.len = t.count
  room : t.place + t.count ≤ t.items.length
  get : ∀ i (h : i < t.items.length), it.buf[i]? = some (some t.items[i])
  stop : ∀ x, it.buf[t.items.length]? ≠ some (some x)

theorem OnTape.peek_lt {ε : Type} {it : SizedIter α} {t : Tape α} (h : it.OnTape t) (i : Nat)
    (hi : i < t.items.length) : (peek it.buf i : Res ε α) = .ok t.items[i] := by
  unfold peek
  rw [h.get i hi]

theorem OnTape.length_le {it : SizedIter α} {t : Tape α} (h : it.OnTape t) :
    t.items.length ≤ it.buf.length := by
  cases hn : t.items.length with
  | zero => exact Nat.zero_le _
  | succ n =>
    have := h.get n (by omega)
    have := (List.getElem?_eq_some_iff.mp this).1
    omega

theorem OnTape.range {it : SizedIter α} {t : Tape α} (h : it.OnTape t) (n : Nat)
    (hn : t.place + n ≤ t.items.length) :
    (it.buf.drop it.pos).take n = (((t.items.drop t.place).take n).map some) := by
  refine List.ext_getElem? fun i => ?_
  rw [List.getElem?_map, List.getElem?_take, List.getElem?_take, List.getElem?_drop,
    List.getElem?_drop, h.pos]
  split
  · rename_i hi
    rw [h.get _ (by omega), List.getElem?_eq_getElem (by omega)]
    rfl
  · rfl

theorem OnTape.represents {it : SizedIter α} {t : Tape α} (h : it.OnTape t) :
    it.Represents t.left :=
  ⟨by have := h.pos; have := h.len; have := h.room; have := h.length_le; omega,
    by rw [h.len]; exact h.range t.count h.room⟩

theorem Tape.left_length {t : Tape α} (h : t.place + t.count ≤ t.items.length) :
    t.left.length = t.count := by
  unfold Tape.left
  rw [List.length_take, List.length_drop]
  omega

/-- An operation on the iterator is what `tapeStep` says, or is not defined if that is not. -/
theorem OnTape.step {it : SizedIter α} {t : Tape α} (h : it.OnTape t) (checks : Bool)
    (op : CopyOp α) :
    match tapeStep t op with
    | some (out, t') => ∃ it', it.stepCopy checks op = .ok (out, it') ∧ it'.OnTape t'
    | none => (∃ p, it.stepCopy checks op = .panic p) ∨ ∃ u, it.stepCopy checks op = .ub u := by
  have hp := h.pos
  have hl := h.len
  have hr := h.room
  have hb := h.length_le
  cases op with
  | front =>
    rw [tapeStep, stepCopy]
    unfold nextCopy
    by_cases h0 : t.count = 0
    · rw [if_pos h0, if_pos (by omega)]
      exact ⟨it, rfl, h⟩
    · rw [if_neg h0, if_neg (by omega), hp, h.peek_lt _ (by omega)]
      refine ⟨_, by rw [List.getElem?_eq_getElem (by omega)]; rfl, ?_⟩
      exact ⟨rfl, by show it.len - 1 = _; rw [hl], by show t.place + 1 + (t.count - 1) ≤ t.items.length; omega,
        h.get, h.stop⟩
  | back =>
    rw [tapeStep, stepCopy]
    unfold nextBackCopy
    by_cases h0 : t.count = 0
    · rw [if_pos h0, if_pos (by omega)]
      exact ⟨it, rfl, h⟩
    · rw [if_neg h0, if_neg (by omega), hp, hl, h.peek_lt _ (by omega)]
      refine ⟨_, by rw [List.getElem?_eq_getElem (by omega)]; rfl, ?_⟩
      exact ⟨rfl, rfl, by show t.place + (t.count - 1) ≤ t.items.length; omega, h.get, h.stop⟩
  | set i a =>
    have hlen := Tape.left_length hr
    rw [tapeStep, stepCopy]
    by_cases hi : i < t.count
    · rw [if_pos hi, ((h.represents.setIndex i a).1 (by omega)).1]
      refine ⟨_, rfl, hp, hl, by show _ ≤ (t.items.set _ _).length; rw [List.length_set]; exact hr,
        fun j hj => ?_, fun x => ?_⟩
      · rw [List.length_set] at hj
        show (it.buf.set _ _)[j]? = _
        rw [List.getElem?_set, List.getElem_set, hp]
        by_cases he : t.place + i = j
        · rw [if_pos he, if_pos (by omega), if_pos he]
        · rw [if_neg he, if_neg he, h.get j hj]
      · show (it.buf.set _ _)[(t.items.set _ _).length]? ≠ _
        rw [List.length_set, List.getElem?_set_ne (by omega)]
        exact h.stop x
    · rw [if_neg hi, (h.represents.setIndex i a).2 (by omega)]
      exact ⟨it, rfl, h⟩
  | nth k =>
    rw [tapeStep, stepCopy]
    unfold nthCopy
    by_cases hk : k > t.count
    · rw [if_pos hk, if_pos (by omega)]
      exact ⟨it, rfl, h⟩
    · rw [if_neg hk, if_neg (show ¬ k > it.len by omega)]
      by_cases hk0 : k = 0
      · subst hk0
        rw [if_pos (Or.inl rfl)]
        simp only
        by_cases hs : it.pos + 0 = 0
        · rw [if_pos hs]
          cases checks
          · exact .inr ⟨_, rfl⟩
          · exact .inl ⟨_, rfl⟩
        · rw [if_neg hs, if_pos (Or.inl (by omega))]
          exact .inr ⟨_, rfl⟩
      · simp only
        have hrange := h.range (it.pos + k - 1 - it.pos) (by omega)
        rw [if_neg (show ¬ it.pos + k = 0 by omega),
          if_neg (show ¬ (it.pos > it.pos + k - 1 ∨ it.pos + k - 1 > it.buf.length) by omega),
          hrange, initAll_map_some]
        by_cases hki : t.items.length ≤ k
        · rw [if_pos (Or.inr hki)]
          have : k = t.items.length := by omega
          simp only
          unfold peek
          split
          · exact .inr ⟨_, rfl⟩
          · exact .inr ⟨_, rfl⟩
          · rename_i a ha
            rw [this] at ha
            exact absurd ha (h.stop a)
        · rw [if_neg (by omega)]
          simp only
          rw [h.peek_lt k (by omega)]
          refine ⟨_, by rw [List.getElem?_eq_getElem (by omega)]; rfl, ?_⟩
          exact ⟨by show it.pos + k = _; rw [hp], by show it.len - k = _; rw [hl],
            by show t.place + k + (t.count - k) ≤ t.items.length; omega, h.get, h.stop⟩

theorem OnTape.run : ∀ (ops : List (CopyOp α)) {it : SizedIter α} {t : Tape α} (checks : Bool),
    it.OnTape t →
    match tapeRun t ops with
    | some (outs, t') => ∃ it', it.runCopy checks ops = .ok (outs, it') ∧ it'.OnTape t'
    | none => (∃ p, it.runCopy checks ops = .panic p) ∨ ∃ u, it.runCopy checks ops = .ub u
  | [], it, t, _, h => ⟨it, rfl, h⟩
  | op :: ops, it, t, checks, h => by
    have hs := h.step checks op
    rw [tapeRun, runCopy]
    cases ht : tapeStep t op with
    | none =>
      rw [ht] at hs
      rcases hs with ⟨p, hp⟩ | ⟨u, hu⟩
      · rw [hp]; exact .inl ⟨p, rfl⟩
      · rw [hu]; exact .inr ⟨u, rfl⟩
    | some x =>
      obtain ⟨out, t'⟩ := x
      rw [ht] at hs
      obtain ⟨it', h1, h2⟩ := hs
      have hr := OnTape.run ops checks h2
      rw [h1]
      simp only
      cases hq : tapeRun t' ops with
      | none =>
        rw [hq] at hr
        rcases hr with ⟨p, hp⟩ | ⟨u, hu⟩
        · rw [hp]; exact .inl ⟨p, rfl⟩
        · rw [hu]; exact .inr ⟨u, rfl⟩
      | some y =>
        obtain ⟨outs, t''⟩ := y
        rw [hq] at hr
        obtain ⟨it'', h3, h4⟩ := hr
        rw [h3]
        exact ⟨it'', rfl, h4⟩

/-- The longest run of items at the start of some cells. -/
def prefixOf : List (MaybeUninit α) → List α
  | some a :: cells => a :: prefixOf cells
  | _ => []

theorem prefixOf_get : ∀ (cells : List (MaybeUninit α)) (i : Nat) (h : i < (prefixOf cells).length),
    cells[i]? = some (some (prefixOf cells)[i])
  | some a :: cells, 0, _ => rfl
  | some a :: cells, i + 1, h => by
    have := prefixOf_get cells i (by simpa [prefixOf] using h)
    simpa [prefixOf] using this
  | [], i, h => absurd h (Nat.not_lt_zero _)
  | none :: cells, i, h => absurd h (Nat.not_lt_zero _)

theorem prefixOf_stop : ∀ (cells : List (MaybeUninit α)) (x : α),
    cells[(prefixOf cells).length]? ≠ some (some x)
  | some a :: cells, x => by
    have := prefixOf_stop cells x
    simpa [prefixOf] using this
  | [], x => by simp [prefixOf]
  | none :: cells, x => by simp [prefixOf]

theorem prefixOf_append : ∀ (l : List α) (cells : List (MaybeUninit α)),
    prefixOf (l.map some ++ cells) = l ++ prefixOf cells
  | [], _ => rfl
  | a :: l, cells => by
    show a :: prefixOf (l.map some ++ cells) = _
    rw [prefixOf_append l cells]; rfl

/-- A fresh iterator is on a tape that starts with the items of the slice. -/
theorem onTape_intoIter {ε : Type} {s : SizedSlice α} {l : List α}
    (h : (s.asSlice : Res ε (List α)) = .ok l) :
    s.intoIter.OnTape ⟨l ++ prefixOf (s.buf.drop l.length), 0, l.length⟩ := by
  have hl := SizedSlice.asSlice_len h
  have hb := SizedSlice.asSlice_ok.mp h
  have he : s.buf = l.map some ++ s.buf.drop l.length := by
    conv => lhs; rw [← List.take_append_drop s.len s.buf]
    rw [hb.2, hl]
  have hp : prefixOf s.buf = l ++ prefixOf (s.buf.drop l.length) := by
    conv => lhs; rw [he]
    exact prefixOf_append _ _
  refine ⟨rfl, hl, by simp, fun i hi => ?_, fun x => ?_⟩
  · simp only [← hp] at hi ⊢
    exact prefixOf_get _ i hi
  · show s.buf[_]? ≠ _
    simp only [← hp]
    exact prefixOf_stop _ x

/-- `b` is `a` with some more cells filled. -/
def Fuller (a b : SizedIter α) : Prop :=
  a.pos = b.pos ∧ a.len = b.len ∧ a.buf.length = b.buf.length ∧
    ∀ (i : Nat) (x : α), a.buf[i]? = some (some x) → b.buf[i]? = some (some x)

theorem Fuller.refl (a : SizedIter α) : Fuller a a := ⟨rfl, rfl, rfl, fun _ _ h => h⟩

theorem fuller_set_none {l m : List (MaybeUninit α)} (j : Nat)
    (h : ∀ (i : Nat) (x : α), l[i]? = some (some x) → m[i]? = some (some x)) :
    ∀ (i : Nat) (x : α), (l.set j none)[i]? = some (some x) → m[i]? = some (some x) := fun i x hx => by
  rw [List.getElem?_set] at hx
  split at hx
  · split at hx <;> cases hx
  · exact h i x hx

theorem take_ok {ε : Type} {cells : List (MaybeUninit α)} {i : Nat} {a : α}
    {c : List (MaybeUninit α)} (h : (take cells i : Res ε _) = .ok (a, c)) :
    cells[i]? = some (some a) ∧ c = cells.set i none := by
  unfold take at h
  split at h
  · cases h
  · cases h
  · rename_i b hb
    obtain ⟨rfl, rfl⟩ := Prod.mk.inj (Res.ok.inj h)
    exact ⟨hb, rfl⟩

theorem peek_of {ε : Type} {cells : List (MaybeUninit α)} {i : Nat} {a : α}
    (h : cells[i]? = some (some a)) : (peek cells i : Res ε α) = .ok a := by
  unfold peek
  rw [h]

theorem Res.map_ok {ε β γ : Type} {r : Res ε β} {f : β → γ} {c : γ} (h : r.map f = .ok c) :
    ∃ b, r = .ok b ∧ f b = c := by
  cases r with
  | ok b => exact ⟨b, rfl, Res.ok.inj h⟩
  | err e => cases h
  | panic p => cases h
  | ub u => cases h

theorem initAll_mono {l m : List (MaybeUninit α)} {r : List α} (h : initAll l = some r)
    (hl : l.length = m.length) (hm : ∀ (i : Nat) (x : α), l[i]? = some (some x) → m[i]? = some (some x)) :
    l = m := by
  have he := initAll_eq_some.mp h
  subst he
  refine List.ext_getElem? fun i => ?_
  by_cases hi : i < r.length
  · have : (r.map some)[i]? = some (some r[i]) := by
      rw [List.getElem?_map, List.getElem?_eq_getElem hi]
      rfl
    rw [this, hm i _ this]
  · have := List.length_map (as := r) some
    rw [List.getElem?_eq_none (by omega), List.getElem?_eq_none (by omega)]

/-- Whatever an operation gives if items are moved, it gives if they are copied. -/
theorem Fuller.step {a b : SizedIter α} (h : Fuller a b) (checks : Bool) (op : CopyOp α)
    {out : DequeOut α} {a' : SizedIter α} (hs : a.stepMove checks op = .ok (out, a')) :
    ∃ b', b.stepCopy checks op = .ok (out, b') ∧ Fuller a' b' := by
  obtain ⟨hp, hl, hn, hf⟩ := h
  cases op with
  | front =>
    rw [stepMove] at hs
    unfold next at hs
    rw [stepCopy]
    unfold nextCopy
    rw [← hl]
    split at hs
    · rename_i h0
      obtain ⟨rfl, rfl⟩ := Prod.mk.inj (Res.ok.inj hs)
      rw [if_pos h0]
      exact ⟨b, rfl, hp, hl, hn, hf⟩
    · rename_i h0
      rw [if_neg h0]
      obtain ⟨⟨x, it⟩, h1, h2⟩ := Res.map_ok hs
      obtain ⟨⟨y, c⟩, h3, h4⟩ := Res.map_ok h1
      obtain ⟨h5, rfl⟩ := take_ok h3
      obtain ⟨rfl, rfl⟩ := Prod.mk.inj h4
      obtain ⟨rfl, rfl⟩ := Prod.mk.inj h2
      rw [← hp, peek_of (hf _ _ h5)]
      exact ⟨_, rfl, rfl, rfl, by simpa using hn, fuller_set_none _ hf⟩
  | back =>
    rw [stepMove] at hs
    unfold nextBack at hs
    rw [stepCopy]
    unfold nextBackCopy
    rw [← hl]
    split at hs
    · rename_i h0
      obtain ⟨rfl, rfl⟩ := Prod.mk.inj (Res.ok.inj hs)
      rw [if_pos h0]
      exact ⟨b, rfl, hp, hl, hn, hf⟩
    · rename_i h0
      rw [if_neg h0]
      obtain ⟨⟨x, it⟩, h1, h2⟩ := Res.map_ok hs
      obtain ⟨⟨y, c⟩, h3, h4⟩ := Res.map_ok h1
      obtain ⟨h5, rfl⟩ := take_ok h3
      obtain ⟨rfl, rfl⟩ := Prod.mk.inj h4
      obtain ⟨rfl, rfl⟩ := Prod.mk.inj h2
      rw [← hp, peek_of (hf _ _ h5)]
      exact ⟨_, rfl, rfl, rfl, by simpa using hn, fuller_set_none _ hf⟩
  | set i x =>
    have key : ∀ l, a.asSlice = .ok l → b.asSlice = .ok l := fun l ha => by
      have ha := sliceOf_ok.mp ha
      refine sliceOf_ok.mpr ⟨?_, ?_⟩
      · have := ha.1
        simp only [List.length_drop] at this ⊢
        omega
      · rw [← ha.2, ← hl, ← hp]
        refine (initAll_mono (r := l) (by rw [ha.2]; exact initAll_map_some l) ?_ ?_).symm
        · simp only [List.length_take, List.length_drop]; omega
        · intro i x
          rw [List.getElem?_take, List.getElem?_take, List.getElem?_drop, List.getElem?_drop]
          split
          · exact hf _ _
          · intro h; cases h
    rw [stepMove] at hs
    unfold setIndex at hs
    rw [stepCopy]
    unfold setIndex
    cases ha : a.asSlice with
    | ok l =>
      rw [ha] at hs
      rw [key l ha]
      simp only at hs ⊢
      by_cases hi : i < l.length
      · rw [if_pos hi] at hs ⊢
        obtain ⟨rfl, rfl⟩ := Prod.mk.inj (Res.ok.inj hs)
        refine ⟨_, rfl, hp, hl, by simpa using hn, fun j y => ?_⟩
        show (a.buf.set _ _)[j]? = _ → (b.buf.set _ _)[j]? = _
        rw [← hp, List.getElem?_set, List.getElem?_set, hn]
        split
        · exact id
        · exact hf j y
      · rw [if_neg hi] at hs ⊢
        obtain ⟨rfl, rfl⟩ := Prod.mk.inj (Res.ok.inj hs)
        exact ⟨b, rfl, hp, hl, hn, hf⟩
    | err e => exact e.elim
    | panic p =>
      exfalso
      unfold asSlice sliceOf at ha
      split at ha
      · cases ha
      · split at ha <;> cases ha
    | ub u => rw [ha] at hs; cases hs
  | nth k =>
    rw [stepMove] at hs
    unfold nth at hs
    rw [stepCopy]
    unfold nthCopy
    rw [← hl]
    split at hs
    · rename_i h0
      obtain ⟨rfl, rfl⟩ := Prod.mk.inj (Res.ok.inj hs)
      rw [if_pos h0]
      exact ⟨b, rfl, hp, hl, hn, hf⟩
    · rename_i h0
      rw [if_neg h0]
      simp only at hs ⊢
      rw [← hp, ← hn]
      split at hs
      · split at hs <;> cases hs
      · rename_i h1
        rw [if_neg h1]
        split at hs
        · cases hs
        · rename_i h2
          rw [if_neg h2]
          obtain ⟨⟨x, it⟩, h3, h4⟩ := Res.map_ok hs
          unfold dropRange at h3
          cases hi : initAll ((a.buf.drop a.pos).take (a.pos + k - 1 - a.pos)) with
          | none => rw [hi] at h3; cases h3
          | some l =>
            rw [hi] at h3
            simp only at h3
            obtain ⟨⟨y, c⟩, h5, h6⟩ := Res.map_ok h3
            obtain ⟨h7, rfl⟩ := take_ok h5
            obtain ⟨rfl, rfl⟩ := Prod.mk.inj h6
            obtain ⟨rfl, rfl⟩ := Prod.mk.inj h4
            have hm : ∀ (i : Nat) (x : α), (a.buf.take a.pos
                ++ List.replicate (a.pos + k - 1 - a.pos) none
                ++ a.buf.drop (a.pos + k - 1))[i]? = some (some x) → b.buf[i]? = some (some x) := by
              intro i x hx
              refine hf i x ?_
              have hlt : (a.buf.take a.pos).length = a.pos := by
                rw [List.length_take]; omega
              rw [List.append_assoc] at hx
              by_cases hi1 : i < a.pos
              · rw [List.getElem?_append_left (by omega), List.getElem?_take, if_pos hi1] at hx
                exact hx
              · rw [List.getElem?_append_right (by omega)] at hx
                by_cases hi2 : i - (a.buf.take a.pos).length < a.pos + k - 1 - a.pos
                · rw [List.getElem?_append_left (by simpa using hi2), List.getElem?_replicate,
                    if_pos hi2] at hx
                  cases hx
                · rw [List.getElem?_append_right (by simpa using hi2), List.getElem?_drop,
                    List.length_replicate] at hx
                  rw [← hx]
                  congr 1
                  omega
            have hr : (b.buf.drop a.pos).take (a.pos + k - 1 - a.pos)
                = (a.buf.drop a.pos).take (a.pos + k - 1 - a.pos) := by
              refine (initAll_mono hi ?_ ?_).symm
              · simp only [List.length_take, List.length_drop]; omega
              · intro i x
                rw [List.getElem?_take, List.getElem?_take, List.getElem?_drop, List.getElem?_drop]
                split
                · exact hf _ _
                · intro h; cases h
            rw [hr, hi]
            simp only
            rw [peek_of (hm _ _ h7)]
            refine ⟨_, rfl, rfl, rfl, ?_, fuller_set_none _ hm⟩
            simp only [List.length_set, List.length_append, List.length_take, List.length_replicate,
              List.length_drop]
            omega

theorem Fuller.run : ∀ (ops : List (CopyOp α)) {a b : SizedIter α} (checks : Bool), Fuller a b →
    ∀ {outs : List (DequeOut α)} {a' : SizedIter α}, a.runMove checks ops = .ok (outs, a') →
    ∃ b', b.runCopy checks ops = .ok (outs, b') ∧ Fuller a' b'
  | [], a, b, _, h, outs, a', hr => by
    obtain ⟨rfl, rfl⟩ := Prod.mk.inj (Res.ok.inj hr)
    exact ⟨b, rfl, h⟩
  | op :: ops, a, b, checks, h, outs, a', hr => by
    rw [runMove] at hr
    cases hs : a.stepMove checks op with
    | ok x =>
      obtain ⟨out, a1⟩ := x
      rw [hs] at hr
      obtain ⟨b1, h1, h2⟩ := h.step checks op hs
      obtain ⟨⟨outs', a2⟩, h3, h4⟩ := Res.map_ok hr
      obtain ⟨rfl, rfl⟩ := Prod.mk.inj h4
      obtain ⟨b2, h5, h6⟩ := Fuller.run ops checks h2 h3
      rw [runCopy, h1]
      simp only
      rw [h5]
      exact ⟨b2, rfl, h6⟩
    | err e => exact e.elim
    | panic p => rw [hs] at hr; cases hr
    | ub u => rw [hs] at hr; cases hr

end SizedIter
end Oct
