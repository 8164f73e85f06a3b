import Verif.Proofs.Derived
import Verif.Props.Samples
/-
C47, C50: what decode errors say.
-/
namespace Oct.Props
open Oct Spec
set_option linter.unusedVariables false

/-- `e` is the error `cause`, inside any number of collections and enumerations. -/
inductive CausedBy (cause : DecErr) : DecErr → Prop
  | refl : CausedBy cause cause
  | badLength {e} : CausedBy cause e → CausedBy cause (.badLength e)
  | badItem {e} : CausedBy cause e → CausedBy cause (.badItem e)
  | item (i : Nat) {e} : CausedBy cause e → CausedBy cause (.item i e)
  | badField {e} : CausedBy cause e → CausedBy cause (.badField e)

/-- C47. The generic error is determined by the cause, however deep it is inside collections and
enumerations. -/
theorem C47_nesting (cause e : DecErr) (h : CausedBy cause e) : e.toGeneric = cause.toGeneric := by
  induction h with
  | refl => rfl
  | badLength _ ih => exact ih
  | badItem _ ih => exact ih
  | item i _ ih => exact ih
  | badField _ ih => exact ih

/-- C47. The cause and its data are kept. Missing: a negative discriminant, see
`C47_false_discriminant`. -/
theorem C47_causes_partial (e : DecErr) :
    (∀ v i, CausedBy (.utf8 v i) e → e.toGeneric = .gBadString v i) ∧
    (∀ i, CausedBy (.cString i) e → e.toGeneric = .gNullString i) ∧
    (CausedBy .nonZero e → e.toGeneric = .gNullInteger) ∧
    (∀ c l, CausedBy (.length c l) e → e.toGeneric = .gSmallBuffer c l) ∧
    (∀ t, CausedBy (.systemTime t) e → e.toGeneric = .gNarrowSystemTime t) ∧
    (∀ x : Nat, x < 2 ^ 128 → CausedBy (.unassigned x) e → e.toGeneric = .gUnassigned x) := by
  refine ⟨fun v i h => C47_nesting _ _ h, fun i h => C47_nesting _ _ h, fun h => C47_nesting _ _ h,
    fun c l h => C47_nesting _ _ h, fun t h => C47_nesting _ _ h, ?_⟩
  intro x hx h
  rw [C47_nesting _ _ h]
  show DecErr.gUnassigned (toU128 x) = _
  congr 1
  unfold toU128
  rw [Int.emod_eq_of_lt (by omega) (by omega)]
  omega

/-- C47: a generic error is not changed by a further conversion, so nesting structures keeps it. -/
theorem C47_idempotent (e : DecErr) : e.toGeneric.toGeneric = e.toGeneric := by
  induction e with
  | badLength _ ih => exact ih
  | badItem _ ih => exact ih
  | item _ _ ih => exact ih
  | badField _ ih => exact ih
  | _ => rfl

/-- C47 is false of every negative discriminant: it is sign-extended, to `2^128` less its absolute
value, which for no type narrower than 128 bits is its zero-extension. -/
theorem C47_false_discriminant (k : IntKind) (x : Int) (hr : (Repr.int k).InRange x) (hx : x < 0) :
    (DecErr.unassigned x).toGeneric = .gUnassigned (2 ^ 128 - x.natAbs) ∧
    (k.bytes < 16 →
      (DecErr.unassigned x).toGeneric ≠ .gUnassigned (x % (2 : Int) ^ (8 * k.bytes)).toNat) := by
  have h1 : -(2 : Int) ^ 127 ≤ x := by
    cases k <;> simp [Repr.InRange, IntKind.signed, IntKind.bytes] at hr <;> omega
  have h2 : toU128 x = 2 ^ 128 - x.natAbs := by
    unfold toU128
    have : x % (2 ^ 128 : Int) = x + 2 ^ 128 := by
      rw [← Int.add_emod_right, Int.emod_eq_of_lt (by omega) (by omega)]
    rw [this]
    omega
  refine ⟨congrArg DecErr.gUnassigned h2, ?_⟩
  intro hk h
  have h3 : toU128 x = (x % (2 : Int) ^ (8 * k.bytes)).toNat := DecErr.gUnassigned.inj h
  have h4 := emod_toNat_lt x k.bytes
  rw [← h3, h2] at h4
  have h5 : (256 : Nat) ^ k.bytes ≤ 256 ^ 8 := by
    cases k <;> simp [IntKind.bytes] at hk ⊢
  omega

/-- C47: in a derived structure, the error of the first field that fails is reported in its generic
form. -/
theorem C47_structure (fs gs : Fields) (t : Ty) (w w' : List Byte) (v : fs.Val) (e : DecErr)
    (h1 : Yields (Ty.struct fs).decode w (.ok v)) (h2 : Yields t.decode w' (.err e)) :
    Yields (Ty.struct (appendFields fs (.cons t gs))).decode (w ++ w') (.err e.toGeneric) := by
  suffices H : ∀ (fs : Fields) (v : fs.Val) (m : Dec fs.Val), m = fs.decode DecErr.toGeneric →
      ∀ i, (m i).1 = .ok v → (∀ e i', t.decode (m i).2 = (.err e, i') →
        (appendFields fs (.cons t gs)).decode DecErr.toGeneric i = (.err e.toGeneric, i')) by
    intro pre rest
    have a1 := h1 pre (w' ++ rest)
    have a2 := h2 (pre ++ w) rest
    rw [List.append_assoc, List.length_append] at a2
    have := H fs v _ rfl ⟨pre ++ (w ++ (w' ++ rest)), pre.length⟩
      (congrArg Prod.fst (show fs.decode DecErr.toGeneric _ = _ from a1)) e _
      (by rw [show fs.decode DecErr.toGeneric _ = _ from a1]; exact a2)
    rw [List.append_assoc w, List.length_append, ← Nat.add_assoc]
    exact this
  intro fs
  induction fs using Fields.rec (motive_1 := fun _ => True) (motive_3 := fun _ => True) with
  | nil =>
    rintro v m rfl i h e i' he
    show Dec.bind (t.decode.mapErr _) _ _ = _
    unfold Dec.bind Dec.mapErr
    rw [show t.decode i = _ from he]
    rfl
  | cons t' fs _ ih =>
    rintro v m rfl i h e i' he
    have hb : (Fields.cons t' fs).decode DecErr.toGeneric = Dec.bind (t'.decode.mapErr DecErr.toGeneric)
      (fun v => Dec.bind (fs.decode DecErr.toGeneric) fun vs => Dec.pure (v, vs)) := rfl
    rw [hb] at h he
    show Dec.bind (t'.decode.mapErr _) (fun v => Dec.bind
      ((appendFields fs (.cons t gs)).decode DecErr.toGeneric) fun vs => Dec.pure (v, vs)) _ = _
    unfold Dec.bind at h he ⊢
    generalize t'.decode.mapErr DecErr.toGeneric i = q at h he ⊢
    obtain ⟨q, i1⟩ := q
    cases q with
    | ok a =>
      simp only at h he ⊢
      generalize hq : fs.decode DecErr.toGeneric i1 = q2 at h he
      obtain ⟨q2, i2⟩ := q2
      cases q2 with
      | ok b =>
        have := ih b _ rfl i1 (by rw [hq]) e i' (by rw [hq]; exact he)
        rw [this]
        rfl
      | err e => cases h
      | panic p => cases h
      | ub u => cases h
    | err e => cases h
    | panic p => cases h
    | ub u => cases h
  | _ => trivial

example : CausedBy (.utf8 0xFF 3) (.badItem (.item 2 (.badField (.badItem (.utf8 0xFF 3))))) :=
  .badItem (.item 2 (.badField (.badItem .refl)))
example : (Repr.int .i8).InRange (-1) ∧ IntKind.i8.bytes < 16 := by decide
example : (DecErr.unassigned (-1)).toGeneric = .gUnassigned 340282366920938463463374607431768211455 := by
  decide

/-- The loop over the items, split at the first one that fails. -/
theorem decItems_err_iff {α : Type} (dec : Dec α) (n : Nat) : ∀ (i : Nat) (inp inp' : Input) (e : DecErr),
    decItems dec n i inp = (.err e, inp') ↔
      ∃ (k : Nat) (vs : Items α k) (inp1 : Input) (e' : DecErr), k < n ∧
        decItems dec k i inp = (.ok vs, inp1) ∧ dec inp1 = (.err e', inp') ∧
        e = .badItem (.item (i + k) e') := by
  induction n with
  | zero =>
    intro i inp inp' e
    constructor
    · intro h; cases h
    · rintro ⟨k, _, _, _, hk, _⟩; exact absurd hk (Nat.not_lt_zero _)
  | succ n ih =>
    intro i inp inp' e
    have hb : ∀ m, decItems dec (m + 1) i inp = Dec.bind (dec.mapErr (fun e => .badItem (.item i e)))
      (fun v => Dec.bind (decItems dec m (i + 1)) fun vs =>
        Dec.pure ⟨v :: vs.val, by simp [vs.property]⟩) inp := fun m => rfl
    rw [hb n]
    unfold Dec.bind Dec.mapErr
    cases hq : dec inp with
    | mk q i1 =>
    cases q with
    | err e0 =>
      constructor
      · intro h
        obtain ⟨h1, h2⟩ := Prod.mk.inj h
        subst h2
        refine ⟨0, ⟨[], rfl⟩, inp, e0, Nat.succ_pos n, rfl, hq, ?_⟩
        exact (Res.err.inj h1).symm
      · rintro ⟨k, vs, inp1, e', hk, h1, h2, rfl⟩
        cases k with
        | zero =>
          obtain ⟨-, rfl⟩ := Prod.mk.inj h1
          rw [hq] at h2
          obtain ⟨h3, rfl⟩ := Prod.mk.inj h2
          cases h3
          rfl
        | succ k =>
          rw [hb k] at h1
          unfold Dec.bind Dec.mapErr at h1
          rw [hq] at h1
          cases h1
    | ok a =>
      dsimp only [Res.mapErr]
      constructor
      · intro h
        cases hq2 : decItems dec n (i + 1) i1 with
        | mk q2 i2 =>
        rw [hq2] at h
        cases q2 with
        | ok b => cases h
        | err e1 =>
          cases h
          obtain ⟨k, vs, inp1, e', hk, h1, h2, rfl⟩ := (ih (i + 1) i1 _ _).mp hq2
          refine ⟨k + 1, ⟨a :: vs.val, by simp [vs.property]⟩, inp1, e', by omega, ?_, h2, ?_⟩
          · rw [hb k]
            unfold Dec.bind Dec.mapErr
            rw [hq]
            dsimp only [Res.mapErr]
            rw [h1]
            rfl
          · have : i + 1 + k = i + (k + 1) := by omega
            rw [this]
        | panic p => cases h
        | ub u => cases h
      · rintro ⟨k, vs, inp1, e', hk, h1, h2, rfl⟩
        cases k with
        | zero =>
          obtain ⟨-, rfl⟩ := Prod.mk.inj h1
          rw [hq] at h2
          cases h2
        | succ k =>
          rw [hb k] at h1
          unfold Dec.bind Dec.mapErr at h1
          rw [hq] at h1
          dsimp only [Res.mapErr] at h1
          cases hq2 : decItems dec k (i + 1) i1 with
          | mk q2 i2 =>
          rw [hq2] at h1
          cases q2 with
          | ok b =>
            cases h1
            have := (ih (i + 1) i1 inp' (.badItem (.item (i + 1 + k) e'))).mpr
              ⟨k, b, _, e', by omega, hq2, h2, rfl⟩
            rw [this]
            have e : i + (k + 1) = i + 1 + k := by omega
            rw [e]
          | err e1 => cases h1
          | panic p => cases h1
          | ub u => cases h1
    | panic p =>
      constructor
      · intro h; cases h
      · rintro ⟨k, vs, inp1, e', hk, h1, h2, rfl⟩
        cases k with
        | zero =>
          obtain ⟨-, rfl⟩ := Prod.mk.inj h1
          rw [hq] at h2
          cases h2
        | succ k =>
          rw [hb k] at h1
          unfold Dec.bind Dec.mapErr at h1
          rw [hq] at h1
          cases h1
    | ub u =>
      constructor
      · intro h; cases h
      · rintro ⟨k, vs, inp1, e', hk, h1, h2, rfl⟩
        cases k with
        | zero =>
          obtain ⟨-, rfl⟩ := Prod.mk.inj h1
          rw [hq] at h2
          cases h2
        | succ k =>
          rw [hb k] at h1
          unfold Dec.bind Dec.mapErr at h1
          rw [hq] at h1
          cases h1

/-- C50 for arrays: decoding reports an error exactly if for some `k` below the length the first `k`
items decode and the next one does not; then the error carries `k` and that item's error, and the
position is where that item's decoding stopped. -/
theorem C50_array (t : Ty) (n : Nat) (i i' : Input) (e : DecErr) :
    (Ty.array t n).decode i = (.err e, i') ↔
      ∃ (k : Nat) (vs : (Ty.array t k).Val) (i1 : Input) (e' : DecErr), k < n ∧
        (Ty.array t k).decode i = (.ok vs, i1) ∧ t.decode i1 = (.err e', i') ∧
        e = .badItem (.item k e') := by
  have := decItems_err_iff t.decode n 0 i i' e
  simp only [Nat.zero_add] at this
  exact this

/-- C50 for vectors and linked lists: as for arrays, after the length. -/
theorem C50_seq (s : SeqKind) (t : Ty) (i i' : Input) (e : DecErr) :
    (Ty.seq s t).decode i = (.err e, i') ↔
      ∃ (len : Nat) (i0 : Input) (k : Nat) (vs : (Ty.array t k).Val) (i1 : Input) (e' : DecErr),
        Ty.usize.decode i = (.ok len, i0) ∧ k < len ∧
        (Ty.array t k).decode i0 = (.ok vs, i1) ∧ t.decode i1 = (.err e', i') ∧
        e = .badItem (.item k e') := by
  show decSeq t.decode i = _ ↔ ∃ (len : Nat) (i0 : Input) (k : Nat) (vs : (Ty.array t k).Val)
    (i1 : Input) (e' : DecErr), decUsize i = (.ok len, i0) ∧ _
  refine Iff.trans (b := Dec.bind decUsize (fun len =>
    Dec.bind (decItems t.decode len 0) fun vs => Dec.pure vs.val) i = (.err e, i')) Iff.rfl ?_
  unfold Dec.bind
  cases hq : decUsize i with
  | mk q i0 =>
  cases q with
  | ok len =>
    constructor
    · intro h
      dsimp only at h
      cases hq2 : decItems t.decode len 0 i0 with
      | mk q2 i2 =>
      rw [hq2] at h
      cases q2 with
      | ok b => cases h
      | err e1 =>
        cases h
        obtain ⟨k, vs, i1, e', hk, h⟩ := (C50_array t len i0 i' e).mp hq2
        exact ⟨len, i0, k, vs, i1, e', rfl, hk, h⟩
      | panic p => cases h
      | ub u => cases h
    · rintro ⟨len', i0', k, vs, i1, e', h0, hk, h⟩
      cases h0
      have hq2 : decItems t.decode len 0 i0 = (.err e, i') :=
        (C50_array t len i0 i' e).mpr ⟨k, vs, i1, e', hk, h⟩
      dsimp only
      rw [hq2]
  | err e0 =>
    have hx : ∀ e j, decUsize i ≠ (.err e, j) := by
      intro e j h
      have hb : decUsize i = Dec.bind (Dec.readInto 2) (fun bs => Dec.pure (fromLe bs)) i := rfl
      rw [hb] at h
      unfold Dec.bind at h
      rw [readInto_eq_read] at h
      unfold Dec.read Input.read at h
      by_cases hc : i.buf.length - i.pos < 2
      · simp only [hc, if_true] at h; cases h
      · simp only [hc, if_false] at h; cases h
    exact absurd hq (hx e0 i0)
  | panic p =>
    constructor
    · intro h; cases h
    · rintro ⟨len', i0', k, vs, i1, e', h0, hk, h⟩; cases h0
  | ub u =>
    constructor
    · intro h; cases h
    · rintro ⟨len', i0', k, vs, i1, e', h0, hk, h⟩; cases h0

example : (Ty.seq .vec (.bound .bool)).decode (Input.new [3, 0, 2, 2, 9, 8])
    = (.err (.badItem (.item 2 (.unassigned 9))), ⟨[3, 0, 2, 2, 9, 8], 5⟩) := rfl

end Oct.Props
