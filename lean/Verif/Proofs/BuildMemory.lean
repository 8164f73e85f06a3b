import Verif.Spec.BuildMemory
import Verif.Proofs.Memory
import Verif.Proofs.DecInv
/-
Building vectors, arrays and strings in memory has the results that the decoders of the list model
have.
-/
namespace Oct
open Spec

namespace Mem
variable {α : Type}

theorem alloc_alloc (m : Mem α) (a : Nat) (c c' : List (Option α)) :
    (m.alloc a c).alloc a c' = m.alloc a c' := by
  funext b
  unfold alloc
  split <;> rfl

theorem alloc_free {m : Mem α} {a : Nat} (ha : m a = none) (c : List (Option α)) :
    (m.alloc a c).free a = m := by
  funext b
  unfold alloc free
  by_cases e : b = a
  · subst e; simp [ha]
  · simp [e]

/-- Writing an item into a cell of an allocation. -/
theorem writeAt_alloc (m : Mem α) (a : Nat) (c d : List (Option α)) (x : Option α) (v : α) :
    (m.alloc a (c ++ x :: d)).writeAt ⟨a, 0⟩ c.length v = .ok (m.alloc a (c ++ some v :: d)) := by
  have hadd : (m.alloc a (c ++ x :: d)).add ⟨a, 0⟩ c.length = .ok ⟨a, c.length⟩ := by
    unfold add
    by_cases h0 : c.length = 0
    · rw [if_pos h0, h0]
    · rw [if_neg h0]
      simp only [alloc, if_true]
      rw [if_pos (by simp)]
      simp
  unfold writeAt
  rw [hadd]
  simp only
  unfold store
  rw [if_neg (by simp)]
  simp only [alloc, if_true]
  rw [if_pos (by simp)]
  simp only
  congr 1
  funext b
  by_cases e : b = a
  · simp only [e, if_true, List.length_singleton]
    simp only [Nat.zero_add, List.take_left', List.append_assoc, List.singleton_append]
    rw [show c.length + 1 = (c ++ [x]).length by simp, show c ++ x :: d = (c ++ [x]) ++ d by simp,
      List.drop_left]
    exact (if_pos rfl).symm
  · simp only [if_neg e]
    exact (if_neg e).symm

theorem values_alloc (m : Mem α) (a : Nat) (l : List α) :
    (m.alloc a (l.map some)).values ⟨a, 0⟩ l.length = .ok l := by
  have := load_alloc_same m a (l.map some)
  rw [List.length_map] at this
  exact values_of_load this

end Mem

variable {α : Type}

/-- The loop, with the items `d` already in place and `n` to come. -/
theorem fillItems_spec (dec : Dec α) (a : Nat) (m : Mem α) : ∀ (n : Nat) (d : List α) (I : Input),
    ∃ c, fillItems dec ⟨a, 0⟩ n d.length I (m.alloc a (d.map some ++ List.replicate n none))
        = ((decItems dec n d.length I).1.map fun _ => (), (decItems dec n d.length I).2, m.alloc a c) ∧
      ∀ vs, (decItems dec n d.length I).1 = .ok vs → c = (d ++ vs.val).map some := by
  intro n
  induction n with
  | zero =>
    intro d I
    refine ⟨d.map some, ?_, ?_⟩
    · simp only [List.replicate_zero, List.append_nil]
      rfl
    · intro vs e
      have : (Res.ok ⟨[], rfl⟩ : Res DecErr (Items α 0)) = .ok vs := e
      injection this with e
      rw [← e, List.append_nil]
  | succ n ih =>
    intro d I
    have hd : decItems dec (n + 1) d.length I =
        Dec.bind (dec.mapErr (fun e => .badItem (.item d.length e))) (fun v =>
          Dec.bind (decItems dec n (d.length + 1)) fun vs =>
            Dec.pure ⟨v :: vs.val, by simp [vs.property]⟩) I := rfl
    rw [hd]
    unfold fillItems Dec.bind
    rcases dec.mapErr (fun e => .badItem (.item d.length e)) I with ⟨r, I1⟩
    cases r with
    | err e => exact ⟨_, rfl, (fun _ e => nomatch e)⟩
    | panic x => exact ⟨_, rfl, (fun _ e => nomatch e)⟩
    | ub u => exact ⟨_, rfl, (fun _ e => nomatch e)⟩
    | ok v =>
      simp only
      have hw := Mem.writeAt_alloc m a (d.map some) (List.replicate n none) none v
      rw [List.length_map] at hw
      rw [List.replicate_succ, hw]
      simp only
      have hm : d.map some ++ some v :: List.replicate n none
          = (d ++ [v]).map some ++ List.replicate n none := by simp
      have hl : d.length + 1 = (d ++ [v]).length := by simp
      rw [hm, hl]
      obtain ⟨c, hc, hv⟩ := ih (d ++ [v]) I1
      rw [hc]
      generalize decItems dec n (d ++ [v]).length I1 = q at hv ⊢
      obtain ⟨r2, I2⟩ := q
      cases r2 with
      | ok vs =>
        refine ⟨c, rfl, ?_⟩
        intro ws e
        injection e with e
        subst e
        rw [hv vs rfl]
        simp
      | err e => exact ⟨c, rfl, (fun _ e => nomatch e)⟩
      | panic x => exact ⟨c, rfl, (fun _ e => nomatch e)⟩
      | ub u => exact ⟨c, rfl, (fun _ e => nomatch e)⟩

/-- `fillItems_spec` from the start. -/
theorem fillItems_start (dec : Dec α) (a : Nat) (m : Mem α) (n : Nat) (I : Input) :
    ∃ c, fillItems dec ⟨a, 0⟩ n 0 I (m.alloc a (List.replicate n none))
        = ((decItems dec n 0 I).1.map fun _ => (), (decItems dec n 0 I).2, m.alloc a c) ∧
      ∀ vs, (decItems dec n 0 I).1 = .ok vs → c = vs.val.map some := by
  have := fillItems_spec dec a m n [] I
  simpa using this

theorem rawArrayDecode_spec (dec : Dec α) (n a : Nat) (I : Input) (m : Mem α) (ha : m a = none) :
    ∃ m', rawArrayDecode dec n a I m
        = ((decArray dec n I).1.map Subtype.val, (decArray dec n I).2, m') ∧
      ((∀ u, (decArray dec n I).1 ≠ .ub u) → m' = m) := by
  obtain ⟨c, hc, hv⟩ := fillItems_start dec a m n I
  unfold rawArrayDecode decArray
  rw [hc]
  generalize decItems dec n 0 I = q at hv ⊢
  obtain ⟨r, I1⟩ := q
  cases r with
  | ok vs =>
    have := hv vs rfl
    subst this
    have hl := Mem.values_alloc m a vs.val
    rw [vs.property] at hl
    simp only [Res.map]
    rw [hl]
    exact ⟨_, rfl, fun _ => Mem.alloc_free ha _⟩
  | err e => exact ⟨_, rfl, fun _ => Mem.alloc_free ha _⟩
  | panic x => exact ⟨_, rfl, fun _ => Mem.alloc_free ha _⟩
  | ub u => exact ⟨_, rfl, fun h => absurd rfl (h u)⟩

theorem rawSizedDecode_spec (dec : Dec α) (n a : Nat) (I : Input) (m : Mem α) (ha : m a = none) :
    ∃ r m', rawSizedDecode dec n a I m = (r, (decSizedSlice dec n I).2, m') ∧
      ((∀ u, r ≠ .ub u) → m' = m) ∧
      SizedAgrees n r (decSizedSlice dec n I).1 := by
  have hd : decSizedSlice dec n I = Dec.bind decUsize (fun len =>
      if len > n then Dec.fail (.badLength (.length n len))
      else Dec.bind (decItems dec n 0) fun vs =>
        Dec.pure ⟨vs.val.take len, by simp [List.length_take, vs.property]; omega⟩) I := rfl
  generalize decSizedSlice dec n I = D at hd ⊢
  unfold rawSizedDecode
  unfold Dec.bind at hd
  generalize decUsize I = U at hd ⊢
  obtain ⟨r, I1⟩ := U
  cases r with
  | err e => subst hd; exact ⟨.err e, m, rfl, fun _ => rfl, rfl⟩
  | panic x => subst hd; exact ⟨.panic x, m, rfl, fun _ => rfl, rfl⟩
  | ub u => subst hd; exact ⟨.ub u, m, rfl, fun _ => rfl, rfl⟩
  | ok len =>
    simp only at hd ⊢
    by_cases hlen : len > n
    · replace hd := hd.trans (congrFun (if_pos hlen) I1)
      simp only [if_pos hlen]
      subst hd
      exact ⟨.err _, m, rfl, fun _ => rfl, rfl⟩
    · replace hd := hd.trans (congrFun (if_neg hlen) I1)
      simp only [if_neg hlen]
      obtain ⟨c, hc, hv⟩ := fillItems_start dec a m n I1
      rw [hc]
      generalize decItems dec n 0 I1 = q at hv hd ⊢
      obtain ⟨r, I2⟩ := q
      cases r with
      | ok vs =>
        have := hv vs rfl
        subst this
        have hl := Mem.load_alloc_same m a (vs.val.map some)
        rw [List.length_map, vs.property] at hl
        simp only [Res.map] at hd ⊢
        rw [hl]
        subst hd
        exact ⟨.ok ⟨vs.val.map some, len⟩, _, rfl, fun _ => Mem.alloc_free ha _,
          by rw [List.length_map, vs.property],
          by simp only [Dec.pure, List.length_take, vs.property]; omega, vs.val, rfl, rfl⟩
      | err e => subst hd; exact ⟨.err e, _, rfl, fun _ => Mem.alloc_free ha _, rfl⟩
      | panic x => subst hd; exact ⟨.panic x, _, rfl, fun _ => Mem.alloc_free ha _, rfl⟩
      | ub u => subst hd; exact ⟨.ub u, _, rfl, fun h => absurd rfl (h u), rfl⟩

theorem rawVecDecode_spec (dec : Dec α) (a : Nat) (I : Input) (m : Mem α) (ha : m a = none) :
    ∃ m', rawVecDecode dec a I m
        = ((decSeq dec I).1.map (fun l => ⟨⟨a, 0⟩, l.length, l.length⟩), (decSeq dec I).2, m') ∧
      (∀ b, b ≠ a → m' b = m b) ∧
      (∀ l, (decSeq dec I).1 = .ok l →
        m' a = if l = [] then none else some (l.map some)) ∧
      ((∀ l, (decSeq dec I).1 ≠ .ok l) → (∀ u, (decSeq dec I).1 ≠ .ub u) → m' = m) := by
  have hd : decSeq dec I = Dec.bind decUsize (fun len =>
      Dec.bind (decItems dec len 0) fun vs => Dec.pure vs.val) I := rfl
  rw [hd]
  unfold rawVecDecode Dec.bind
  rcases decUsize I with ⟨r, I1⟩
  cases r with
  | err e => exact ⟨_, rfl, fun _ _ => rfl, (fun _ e => nomatch e), fun _ _ => rfl⟩
  | panic x => exact ⟨_, rfl, fun _ _ => rfl, (fun _ e => nomatch e), fun _ _ => rfl⟩
  | ub u => exact ⟨_, rfl, fun _ _ => rfl, (fun _ e => nomatch e), fun _ _ => rfl⟩
  | ok len =>
    simp only [RawVec.withCapacity]
    by_cases h0 : len = 0
    · subst h0
      refine ⟨m, rfl, fun _ _ => rfl, ?_, fun h => absurd rfl (h _)⟩
      intro l e
      have : (Res.ok [] : Res DecErr (List α)) = .ok l := e
      injection this with e
      rw [if_pos e.symm, ha]
    · rw [if_neg h0]
      obtain ⟨c, hc, hv⟩ := fillItems_start dec a m len I1
      rw [hc]
      have other : ∀ c : List (Option α), ∀ b, b ≠ a → (m.alloc a c) b = m b :=
        fun _ _ h => if_neg h
      generalize decItems dec len 0 I1 = q at hv ⊢
      obtain ⟨r, I2⟩ := q
      cases r with
      | ok vs =>
        have := hv vs rfl
        subst this
        have hl := Mem.values_alloc m a vs.val
        rw [vs.property] at hl
        simp only [Res.map, RawVec.setLen, Nat.le_refl, if_true]
        rw [hl]
        refine ⟨m.alloc a (vs.val.map some), ?_, other _, ?_, fun h => absurd rfl (h vs.val)⟩
        · show _ = (Res.ok (⟨⟨a, 0⟩, vs.val.length, vs.val.length⟩ : RawVec), I2, _)
          rw [vs.property]
        · intro l e
          have : (Res.ok vs.val : Res DecErr (List α)) = .ok l := e
          injection this with e
          subst e
          rw [if_neg]
          · exact if_pos rfl
          · intro e
            have := vs.property
            rw [e] at this
            exact h0 this.symm
      | err e =>
        refine ⟨_, rfl, ?_, (fun _ e => nomatch e), fun _ _ => ?_⟩ <;>
          simp only [RawVec.dropBuf, if_neg h0, Mem.alloc_free ha]
        exact fun _ _ => trivial
      | panic x =>
        refine ⟨_, rfl, ?_, (fun _ e => nomatch e), fun _ _ => ?_⟩ <;>
          simp only [RawVec.dropBuf, if_neg h0, Mem.alloc_free ha]
        exact fun _ _ => trivial
      | ub u => exact ⟨_, rfl, other _, (fun _ e => nomatch e), fun _ h => absurd rfl (h u)⟩

theorem rawUsize_spec {a : Nat} {i : RawInput} {m : Mem Byte} {I : Input} (ha : m a = none)
    (h : ShowsInput m i I) :
    rawUsize a i m = ((decUsize I).1, ⟨i.buf, (decUsize I).2.pos⟩, m) ∧
      ShowsInput m ⟨i.buf, (decUsize I).2.pos⟩ (decUsize I).2 := by
  have hs := RawInput.readInto_shows (m := m.alloc a (List.replicate 2 (some 0))) (i := i) (I := I)
    (dst := ⟨⟨a, 0⟩, 2⟩) (x := List.replicate 2 0) ⟨h.1.alloc ha _, h.2⟩ (holds_zeroes m a 2)
    (apart_fresh h.1 ha _)
  have hd : decUsize I = match I.readInto (List.replicate 2 0) with
      | (.ok (), data, i') => (.ok (fromLe data), i')
      | (.error _, _, i') => (.panic .shortInput, i') := by
    show Dec.bind (Dec.readInto 2) _ I = _
    unfold Dec.bind Dec.readInto
    rcases I.readInto (List.replicate 2 0) with ⟨r, d, I1⟩
    cases r <;> rfl
  rw [hd]
  unfold rawUsize
  rcases hq : I.readInto (List.replicate 2 0) with ⟨r, d, I1⟩
  cases r with
  | error e =>
    obtain ⟨rfl, -, h2⟩ := hs.1 e d I1 hq
    rw [h2]
    simp only
    have hi : (⟨i.buf, I1.pos⟩ : RawInput) = i := by rw [← h.2.1]
    rw [Mem.alloc_free ha, hi]
    exact ⟨rfl, h⟩
  | ok _ =>
    obtain ⟨m', h1, h2, h3, h4⟩ := hs.2 d I1 hq
    rw [h1]
    simp only
    rw [Mem.values_of_load h2.2]
    simp only
    have hm : m'.free a = m := h3.frame_own ha
    have hp : i.pos + 2 = I1.pos := h4.2.1
    rw [hm, hp]
    refine ⟨rfl, ?_, rfl, h4.2.2⟩
    have hb : Holds m' i.buf I1.buf := h4.1
    have := hb.free (a := a) fun hn => Mem.alive_of_load h.1.2 hn ha
    rwa [hm] at this

theorem rawCopyVec_spec {a : Nat} {s : RawSlice} {d : List Byte} {m : Mem Byte} (ha : m a = none)
    (h : Holds m s d) :
    ∃ m', rawCopyVec a s d.length m = (.ok ⟨⟨a, 0⟩, d.length, d.length⟩, m') ∧
      (∀ b, b ≠ a → m' b = m b) ∧ m' a = if d = [] then none else some (d.map some) := by
  unfold rawCopyVec RawVec.withCapacity
  by_cases h0 : d = []
  · subst h0
    exact ⟨m, rfl, fun _ _ => rfl, ha⟩
  · have hl : d.length ≠ 0 := fun e => h0 (List.eq_nil_of_length_eq_zero e)
    simp only [if_neg hl]
    have hne : s.ptr.alloc ≠ a := Mem.alive_of_load h.2 (by rw [h.1]; exact hl) ha
    have hload : (m.alloc a (List.replicate d.length none)).load s.ptr d.length = some (d.map some) := by
      rw [Mem.load_alloc_ne _ _ hne, ← h.1]
      exact h.2
    have hcopy : (m.alloc a (List.replicate d.length none)).copyNonoverlapping s.ptr ⟨a, 0⟩ d.length
        = .ok (m.alloc a (d.map some)) := by
      unfold Mem.copyNonoverlapping
      rw [hload]
      simp only
      rw [if_pos (.inr (.inr (.inl hne)))]
      unfold Mem.store
      rw [if_neg (by simpa using h0)]
      simp only [Mem.alloc, if_true, List.length_map, List.length_replicate, Nat.zero_add, Nat.le_refl]
      congr 1
      funext b
      by_cases e : b = a
      · simp only [e, if_true]
        rw [show List.drop d.length (List.replicate d.length (none : Option Byte)) = [] by
          rw [List.drop_eq_nil_of_le]; simp]
        simp [Mem.alloc]
      · simp [Mem.alloc, e]
    rw [hcopy]
    simp only [RawVec.setLen, Nat.le_refl, if_true]
    rw [Mem.values_alloc]
    exact ⟨_, rfl, fun b hb => if_neg hb, by rw [if_neg h0]; exact if_pos rfl⟩

/-- `rawTextDecode` in the list model. -/
def textDec (test : List Byte → Res DecErr Unit) : Dec (List Byte) := fun I =>
  match decUsize I with
  | (.ok len, I1) =>
    match I1.read len with
    | (.ok data, I2) => ((test data).map fun _ => data, I2)
    | (.error _, I2) => (.panic .shortInput, I2)
  | (.err e, I1) => (.err e, I1)
  | (.panic x, I1) => (.panic x, I1)
  | (.ub u, I1) => (.ub u, I1)

theorem textDec_utf8 (I : Input) :
    textDec testUtf8 I = ((decString I).1.map Subtype.val, (decString I).2) := by
  have hd : decString I = Dec.bind decUsize (fun len => Dec.bind (Dec.read len) strOf) I := rfl
  rw [hd]
  unfold textDec Dec.bind
  rcases decUsize I with ⟨r, I1⟩
  cases r with
  | err e => rfl
  | panic x => rfl
  | ub u => rfl
  | ok len =>
    simp only [Dec.read]
    rcases I1.read len with ⟨r, I2⟩
    cases r with
    | error e => rfl
    | ok data =>
      simp only
      cases h : Utf8.check data with
      | none =>
        have ht : testUtf8 data = .ok () := by unfold testUtf8; rw [h]
        rw [strOf_valid data (by simp [Utf8.valid, h]), ht]
        rfl
      | some j =>
        obtain ⟨c, hc, hf⟩ := strOf_invalid data j h
        rw [hf]
        unfold testUtf8
        rw [h]
        simp only
        rw [hc]
        rfl

theorem textDec_nul (I : Input) :
    textDec testNul I = ((decCString I).1.map Subtype.val, (decCString I).2) := by
  have hd : decCString I = Dec.bind decUsize (fun len => Dec.bind (Dec.read len) fun data =>
      if h : 0 ∉ data then Dec.pure ⟨data, h⟩
      else Dec.fail (.cString (data.findIdx (· == 0)))) I := rfl
  rw [hd]
  unfold textDec Dec.bind
  rcases decUsize I with ⟨r, I1⟩
  cases r with
  | err e => rfl
  | panic x => rfl
  | ub u => rfl
  | ok len =>
    simp only [Dec.read]
    rcases I1.read len with ⟨r, I2⟩
    cases r with
    | error e => rfl
    | ok data =>
      simp only [testNul]
      by_cases h : 0 ∉ data
      · rw [if_pos h, dif_pos h]; rfl
      · rw [if_neg h, dif_neg h]; rfl

theorem rawTextDecode_spec (test : List Byte → Res DecErr Unit) {a : Nat} {i : RawInput} {m : Mem Byte}
    {I : Input} (ha : m a = none) (h : ShowsInput m i I) :
    ∃ m', rawTextDecode test a i m
        = ((textDec test I).1.map (fun d => ⟨⟨a, 0⟩, d.length, d.length⟩),
            ⟨i.buf, (textDec test I).2.pos⟩, m') ∧
      ShowsInput m' ⟨i.buf, (textDec test I).2.pos⟩ (textDec test I).2 ∧
      (∀ b, b ≠ a → m' b = m b) ∧
      (∀ d, (textDec test I).1 = .ok d → m' a = if d = [] then none else some (d.map some)) ∧
      ((∀ d, (textDec test I).1 ≠ .ok d) → m' = m) := by
  obtain ⟨h1, h2⟩ := rawUsize_spec ha h
  unfold rawTextDecode textDec
  rw [h1]
  generalize decUsize I = U at h2 ⊢
  obtain ⟨r, I1⟩ := U
  cases r with
  | err e => exact ⟨m, rfl, h2, fun _ _ => rfl, (fun _ e => nomatch e), fun _ => rfl⟩
  | panic x => exact ⟨m, rfl, h2, fun _ _ => rfl, (fun _ e => nomatch e), fun _ => rfl⟩
  | ub u => exact ⟨m, rfl, h2, fun _ _ => rfl, (fun _ e => nomatch e), fun _ => rfl⟩
  | ok len =>
    simp only at h2 ⊢
    have hs := RawInput.read_shows h2 len
    unfold rawText
    rcases hq : I1.read len with ⟨r, I2⟩
    cases r with
    | error e =>
      obtain ⟨rfl, h3⟩ := hs.1 e I2 hq
      rw [h3]
      exact ⟨m, rfl, h2, fun _ _ => rfl, (fun _ e => nomatch e), fun _ => rfl⟩
    | ok data =>
      obtain ⟨s, h3, h4, -, -, h5⟩ := hs.2 data I2 hq
      rw [h3]
      simp only
      rw [Mem.values_of_load h4.2]
      simp only
      have hp : I1.pos + len = I2.pos := h5.2.1
      simp only at h5
      rw [hp] at h5 ⊢
      cases test data with
      | err e => exact ⟨m, rfl, h5, fun _ _ => rfl, (fun _ e => nomatch e), fun _ => rfl⟩
      | panic x => exact ⟨m, rfl, h5, fun _ _ => rfl, (fun _ e => nomatch e), fun _ => rfl⟩
      | ub u => exact ⟨m, rfl, h5, fun _ _ => rfl, (fun _ e => nomatch e), fun _ => rfl⟩
      | ok _ =>
        obtain ⟨m', c1, c2, c3⟩ := rawCopyVec_spec ha h4
        have hlen : len = data.length := by
          have hw := h2.2.2
          unfold Input.read at hq
          simp only at hq
          split at hq
          · exact nomatch (Prod.mk.inj hq).1
          · have e := Except.ok.inj (Prod.mk.inj hq).1
            rw [← e, List.length_take, List.length_drop]
            omega
        rw [hlen]
        simp only
        rw [c1]
        refine ⟨m', rfl, ?_, c2, ?_, fun h => absurd rfl (h data)⟩
        · refine ⟨⟨h5.1.1, ?_⟩, h5.2⟩
          by_cases hn : i.buf.len = 0
          · have := h5.1.2
            simp only [hn] at this ⊢
            exact this
          · rw [Mem.load_congr _ (c2 _ (Mem.alive_of_load h.1.2 hn ha))]
            exact h5.1.2
        · intro d e
          injection e with e
          rw [← e]
          exact c3

end Oct
