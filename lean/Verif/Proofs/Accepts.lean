import Verif.Spec.Accepts
import Verif.Proofs.Derived
/- The decoders accept and reject what `Spec/Accepts.lean` says. -/
namespace Oct
open Spec
set_option linter.unusedVariables false
variable {α β γ : Type}

/-- From `i` to `i'`, the octets `bs` are consumed. -/
def Took (i : Input) (bs : List Byte) (i' : Input) : Prop :=
  (∃ rest, i.buf.drop i.pos = bs ++ rest) ∧ i' = ⟨i.buf, i.pos + bs.length⟩

theorem Took.nil_iff {i i' : Input} : Took i [] i' ↔ i' = i := by
  constructor
  · rintro ⟨_, rfl⟩; rfl
  · rintro rfl; exact ⟨⟨_, rfl⟩, rfl⟩

theorem Took.append_iff {i i' : Input} {b1 b2 : List Byte} :
    Took i (b1 ++ b2) i' ↔ ∃ i1, Took i b1 i1 ∧ Took i1 b2 i' := by
  constructor
  · rintro ⟨⟨rest, h⟩, rfl⟩
    refine ⟨⟨i.buf, i.pos + b1.length⟩, ⟨⟨b2 ++ rest, by rw [h, List.append_assoc]⟩, rfl⟩,
      ⟨rest, ?_⟩, ?_⟩
    · show i.buf.drop (i.pos + b1.length) = _
      rw [← List.drop_drop, h, List.append_assoc, List.drop_left]
    · simp [List.length_append, Nat.add_assoc]
  · rintro ⟨i1, ⟨⟨r1, h1⟩, rfl⟩, ⟨r2, h2⟩, rfl⟩
    refine ⟨⟨r2, ?_⟩, by simp [List.length_append, Nat.add_assoc]⟩
    have h2' : i.buf.drop (i.pos + b1.length) = b2 ++ r2 := h2
    rw [← List.drop_drop, h1, List.drop_left] at h2'
    rw [h1, h2', List.append_assoc]

/-- A decoder succeeds and fails as the relations say. -/
def Parses (m : Dec α) (A : List Byte → α → Prop) (R : List Byte → DecErr → Prop) : Prop :=
  ∀ i i', (∀ a, m i = (.ok a, i') ↔ ∃ bs, Took i bs i' ∧ A bs a) ∧
    ∀ e, m i = (.err e, i') ↔ ∃ bs, Took i bs i' ∧ R bs e

namespace Parses
variable {A A' : List Byte → α → Prop} {R R' : List Byte → DecErr → Prop}

theorem congr {m : Dec α} (h : Parses m A R) (hA : ∀ bs a, A bs a ↔ A' bs a)
    (hR : ∀ bs e, R bs e ↔ R' bs e) : Parses m A' R' := by
  have e1 : A = A' := by funext bs a; exact propext (hA bs a)
  have e2 : R = R' := by funext bs e; exact propext (hR bs e)
  rw [← e1, ← e2]; exact h

theorem pure (a : α) : Parses (Pure.pure a) (fun bs b => bs = [] ∧ b = a) (fun _ _ => False) := by
  intro i i'
  refine ⟨fun b => ?_, fun e => ?_⟩
  · constructor
    · intro h
      obtain ⟨rfl, rfl⟩ := Dec.pure_ok h
      exact ⟨[], Took.nil_iff.mpr rfl, rfl, rfl⟩
    · rintro ⟨bs, h, rfl, rfl⟩
      rw [Took.nil_iff.mp h]; rfl
  · constructor
    · intro h; cases h
    · rintro ⟨_, _, h⟩; exact h.elim

theorem fail (e : DecErr) :
    Parses (Dec.fail e : Dec α) (fun _ _ => False) (fun bs e' => bs = [] ∧ e' = e) := by
  intro i i'
  refine ⟨fun b => ?_, fun e' => ?_⟩
  · constructor
    · intro h; cases h
    · rintro ⟨_, _, h⟩; exact h.elim
  · constructor
    · intro h
      have h' : ((.err e, i) : Res DecErr α × Input) = (.err e', i') := h
      cases h'
      exact ⟨[], Took.nil_iff.mpr rfl, rfl, rfl⟩
    · rintro ⟨bs, h, rfl, rfl⟩
      rw [Took.nil_iff.mp h]; rfl

theorem panic (p : Panic) : Parses (Dec.panic p : Dec α) (fun _ _ => False) (fun _ _ => False) := by
  intro i i'
  refine ⟨fun b => ?_, fun e' => ?_⟩ <;> constructor
  · intro h; cases h
  · rintro ⟨_, _, h⟩; exact h.elim
  · intro h; cases h
  · rintro ⟨_, _, h⟩; exact h.elim

theorem ub (u : Ub) : Parses (Dec.ub u : Dec α) (fun _ _ => False) (fun _ _ => False) := by
  intro i i'
  refine ⟨fun b => ?_, fun e' => ?_⟩ <;> constructor
  · intro h; cases h
  · rintro ⟨_, _, h⟩; exact h.elim
  · intro h; cases h
  · rintro ⟨_, _, h⟩; exact h.elim

theorem bind {m : Dec α} {f : α → Dec β} {B : α → List Byte → β → Prop}
    {S : α → List Byte → DecErr → Prop} (hm : Parses m A R) (hf : ∀ a, Parses (f a) (B a) (S a)) :
    Parses (m >>= f) (fun bs b => ∃ a b1 b2, bs = b1 ++ b2 ∧ A b1 a ∧ B a b2 b)
      (fun bs e => R bs e ∨ ∃ a b1 b2, bs = b1 ++ b2 ∧ A b1 a ∧ S a b2 e) := by
  intro i i'
  have step : ∀ a i1, m i = (.ok a, i1) → (m >>= f) i = f a i1 := by
    intro a i1 h
    show Dec.bind m f i = _
    unfold Dec.bind; rw [h]
  refine ⟨fun b => ⟨fun h => ?_, ?_⟩, fun e => ⟨fun h => ?_, ?_⟩⟩
  · obtain ⟨a, i1, h1, h2⟩ := Dec.bind_ok h
    obtain ⟨b1, t1, hA⟩ := ((hm i i1).1 a).mp h1
    obtain ⟨b2, t2, hB⟩ := ((hf a i1 i').1 b).mp h2
    exact ⟨b1 ++ b2, Took.append_iff.mpr ⟨i1, t1, t2⟩, a, b1, b2, rfl, hA, hB⟩
  · rintro ⟨_, t, a, b1, b2, rfl, hA, hB⟩
    obtain ⟨i1, t1, t2⟩ := Took.append_iff.mp t
    rw [step a i1 (((hm i i1).1 a).mpr ⟨b1, t1, hA⟩)]
    exact ((hf a i1 i').1 b).mpr ⟨b2, t2, hB⟩
  · have h' : Dec.bind m f i = (.err e, i') := h
    unfold Dec.bind at h'
    cases hq : m i with
    | mk q i1 =>
      rw [hq] at h'
      cases q with
      | ok a =>
        obtain ⟨b1, t1, hA⟩ := ((hm i i1).1 a).mp hq
        obtain ⟨b2, t2, hB⟩ := ((hf a i1 i').2 e).mp h'
        exact ⟨b1 ++ b2, Took.append_iff.mpr ⟨i1, t1, t2⟩, .inr ⟨a, b1, b2, rfl, hA, hB⟩⟩
      | err e1 =>
        cases h'
        obtain ⟨b1, t1, hR⟩ := ((hm i i').2 e).mp hq
        exact ⟨b1, t1, .inl hR⟩
      | panic p => cases h'
      | ub u => cases h'
  · rintro ⟨bs, t, hR | ⟨a, b1, b2, rfl, hA, hB⟩⟩
    · have := ((hm i i').2 e).mpr ⟨bs, t, hR⟩
      show Dec.bind m f i = _
      unfold Dec.bind; rw [this]
    · obtain ⟨i1, t1, t2⟩ := Took.append_iff.mp t
      rw [step a i1 (((hm i i1).1 a).mpr ⟨b1, t1, hA⟩)]
      exact ((hf a i1 i').2 e).mpr ⟨b2, t2, hB⟩

/-- A pure function after a decoder. -/
theorem map {m : Dec α} (f : α → β) (hm : Parses m A R) :
    Parses (m >>= fun a => Pure.pure (f a)) (fun bs b => ∃ a, A bs a ∧ b = f a) R := by
  refine (hm.bind (fun a => Parses.pure (f a))).congr ?_ ?_
  · intro bs b
    constructor
    · rintro ⟨a, b1, b2, rfl, hA, rfl, rfl⟩; exact ⟨a, by rwa [List.append_nil], rfl⟩
    · rintro ⟨a, hA, rfl⟩; exact ⟨a, bs, [], (List.append_nil _).symm, hA, rfl, rfl⟩
  · intro bs e
    constructor
    · rintro (h | ⟨_, _, _, _, _, h⟩)
      · exact h
      · exact h.elim
    · exact .inl

theorem mapErr {m : Dec α} (g : DecErr → DecErr) (hm : Parses m A R) :
    Parses (m.mapErr g) A (fun bs e => ∃ e', R bs e' ∧ e = g e') := by
  intro i i'
  obtain ⟨h1, h2⟩ := hm i i'
  cases hq : m i with
  | mk q i1 =>
    have hs : m.mapErr g i = (q.mapErr g, i1) := by
      unfold Dec.mapErr; rw [hq]
    rw [hq] at h1 h2
    refine ⟨fun a => ?_, fun e => ?_⟩
    · rw [← h1 a, hs]
      cases q <;> simp
    · rw [hs]
      constructor
      · intro h
        cases q with
        | err e1 =>
          cases h
          obtain ⟨bs, t, hR⟩ := (h2 e1).mp rfl
          exact ⟨bs, t, e1, hR, rfl⟩
        | ok a => cases h
        | panic p => cases h
        | ub u => cases h
      · rintro ⟨bs, t, e', hR, rfl⟩
        cases (h2 e').mpr ⟨bs, t, hR⟩
        rfl

theorem read (n : Nat) :
    Parses (Dec.read n) (fun bs d => bs = d ∧ d.length = n) (fun _ _ => False) := by
  intro i i'
  refine ⟨fun d => ⟨fun h => ?_, ?_⟩, fun e => ⟨fun h => ?_, ?_⟩⟩
  · obtain ⟨h1, h2, h3⟩ := Dec.read_ok h
    refine ⟨d, ⟨⟨(i.buf.drop i.pos).drop n, ?_⟩, ?_⟩, rfl, h3⟩
    · rw [h1, List.take_append_drop]
    · rw [h2, h3]
  · rintro ⟨d, ⟨⟨rest, h⟩, rfl⟩, rfl, rfl⟩
    have hl := congrArg List.length h
    rw [List.length_drop, List.length_append] at hl
    unfold Dec.read Input.read
    have hc : ¬ (i.buf.length - i.pos < d.length) := by omega
    simp only [hc, if_false, h, List.take_left]
  · unfold Dec.read Input.read at h
    by_cases hc : i.buf.length - i.pos < n
    · simp only [hc, if_true] at h; cases h
    · simp only [hc, if_false] at h; cases h
  · rintro ⟨_, _, h⟩; exact h.elim

end Parses

/-! Numbers. -/

theorem decNum_parses (n : Nat) :
    Parses (decNum n) (fun bs x => x < 256 ^ n ∧ bs = leBytes n x) (fun _ _ => False) := by
  have h : Parses (Dec.read n >>= fun d => pure (fromLe d)) _ _ := (Parses.read n).map fromLe
  rw [← readInto_eq_read] at h
  refine Parses.congr h ?_ (fun _ _ => Iff.rfl)
  intro bs x
  constructor
  · rintro ⟨d, ⟨rfl, rfl⟩, rfl⟩
    exact ⟨fromLe_lt bs, by rw [← toLe_eq_leBytes, toLe_fromLe]⟩
  · rintro ⟨hx, rfl⟩
    exact ⟨_, ⟨rfl, leBytes_length n x⟩, by rw [← toLe_eq_leBytes, fromLe_toLe, Nat.mod_eq_of_lt hx]⟩

theorem decUsize_parses :
    Parses decUsize (fun bs x => x ≤ 65535 ∧ bs = leBytes 2 x) (fun _ _ => False) :=
  (decNum_parses 2).congr (fun bs x => and_congr_left (fun _ => by
    show x < 65536 ↔ _; omega)) (fun _ _ => Iff.rfl)


theorem decU8_parses :
    Parses decU8 (fun bs x => ∃ b : UInt8, bs = [b] ∧ x = b.toNat) (fun _ _ => False) := by
  refine (decNum_parses 1).congr ?_ (fun _ _ => Iff.rfl)
  intro bs x
  have he : ∀ y < 256, leBytes 1 y = [UInt8.ofNat y] := by
    intro y hy
    simp [leBytes, Nat.mod_eq_of_lt hy]
  constructor
  · rintro ⟨hx, rfl⟩
    exact ⟨UInt8.ofNat x, he x hx, (toNat_ofNat_lt' x hx).symm⟩
  · rintro ⟨b, rfl, rfl⟩
    refine ⟨byte_toNat_lt b, ?_⟩
    rw [he _ (byte_toNat_lt b), UInt8.ofNat_toNat]
where
  toNat_ofNat_lt' (x : Nat) (h : x < 256) : (UInt8.ofNat x).toNat = x := Utf8.toNat_ofNat_lt x h

theorem decInt_parses (s : Bool) (n : Nat) (hn : 0 < n) :
    Parses (decNum n >>= fun x => pure (ofBits s n x))
      (fun bs x => (if s = true then -(2 : Int) ^ (8 * n - 1) ≤ x ∧ x < (2 : Int) ^ (8 * n - 1)
        else 0 ≤ x ∧ x < (2 : Int) ^ (8 * n)) ∧ bs = leBytesInt n x) (fun _ _ => False) := by
  refine ((decNum_parses n).map (ofBits s n)).congr ?_ (fun _ _ => Iff.rfl)
  intro bs x
  constructor
  · rintro ⟨y, ⟨hy, rfl⟩, rfl⟩
    exact ⟨ofBits_range s n y hn hy, (leBytesInt_ofBits s n y hy).symm⟩
  · rintro ⟨hx, rfl⟩
    exact ⟨_, ⟨emod_toNat_lt x n, rfl⟩, (ofBits_twos s n hn x hx).symm⟩

theorem decIsize_parses :
    Parses decIsize (fun bs x => (-32768 ≤ x ∧ x ≤ 32767) ∧ bs = leBytesInt 2 x)
      (fun _ _ => False) := by
  refine (decInt_parses true 2 (by omega)).congr ?_ (fun _ _ => Iff.rfl)
  intro bs x
  refine and_congr_left (fun _ => ?_)
  simp only [if_true]
  constructor <;> (intro h; simp at h ⊢; omega)

theorem decRepr_parses (r : Repr) :
    Parses (decRepr r) (fun bs x => ReprEncodable r x ∧ r.InRange x ∧ bs = reprWire r x)
      (fun _ _ => False) := by
  cases r with
  | int k =>
    refine (decInt_parses k.signed k.bytes k.bytes_pos).congr ?_ (fun _ _ => Iff.rfl)
    intro bs x
    exact ⟨fun h => ⟨trivial, h.1, h.2⟩, fun h => h.2⟩
  | usize =>
    refine (decUsize_parses.map (fun x : Nat => (x : Int))).congr ?_ (fun _ _ => Iff.rfl)
    have hw : ∀ y : Nat, y ≤ 65535 → leBytes 2 y = reprWire .usize y := by
      intro y hy
      unfold reprWire leBytesInt
      congr 1
      have : (y : Int) % (2 : Int) ^ (8 * Repr.usize.bytes) = y := Int.emod_eq_of_lt (by omega) (by
        show (y : Int) < 65536; omega)
      rw [this]; rfl
    intro bs x
    constructor
    · rintro ⟨y, ⟨hy, rfl⟩, rfl⟩
      refine ⟨?_, ?_, hw y hy⟩
      · show (y : Int) ≤ 65535; omega
      · show (0 : Int) ≤ y; omega
    · rintro ⟨h1, h2, rfl⟩
      have h1' : x ≤ 65535 := h1
      have h2' : 0 ≤ x := h2
      refine ⟨x.toNat, ⟨by omega, ?_⟩, by omega⟩
      rw [hw x.toNat (by omega)]
      congr 1; omega
  | isize =>
    refine decIsize_parses.congr ?_ (fun _ _ => Iff.rfl)
    intro bs x
    exact ⟨fun h => ⟨h.1, trivial, h.2⟩, fun h => ⟨h.1, h.2.2⟩⟩

theorem decBool_parses :
    Parses decBool (fun bs v => ∃ b : UInt8, bs = [b] ∧ (v = true ↔ b ≠ 0)) (fun _ _ => False) := by
  refine (decU8_parses.map (fun x => x != 0)).congr ?_ (fun _ _ => Iff.rfl)
  intro bs v
  have hz : ∀ b : UInt8, (b.toNat != 0) = true ↔ b ≠ 0 := by
    intro b
    rw [bne_iff_ne, ne_eq, ne_eq, ← UInt8.toNat_inj]
    rfl
  constructor
  · rintro ⟨_, ⟨b, rfl, rfl⟩, rfl⟩
    exact ⟨b, rfl, hz b⟩
  · rintro ⟨b, rfl, h⟩
    refine ⟨_, ⟨b, rfl, rfl⟩, ?_⟩
    rw [Bool.eq_iff_iff]
    exact h.trans (hz b).symm

theorem decChar_parses :
    Parses decChar (fun bs (v : Char) => bs = leBytes 4 v.toNat)
      (fun bs e => ∃ x < 2 ^ 32, (0xD800 ≤ x ∧ x ≤ 0xDDFF ∨ 0x110000 ≤ x) ∧ bs = leBytes 4 x ∧
        e = .char x) := by
  have h1 : ∀ cp : Nat, Parses (if cp ≤ 0xD7FF ∨ (0xDE00 ≤ cp ∧ cp ≤ 0x10FFFF) then
      if h : cp.isValidChar then (pure (Char.ofNatAux cp h) : Dec Char) else Dec.ub .invalidChar
      else Dec.fail (.char cp)) (fun bs v => bs = [] ∧ v.toNat = cp)
      (fun bs e => bs = [] ∧ (0xD800 ≤ cp ∧ cp ≤ 0xDDFF ∨ 0x110000 ≤ cp) ∧ e = .char cp) := by
    intro cp
    by_cases hc : cp ≤ 0xD7FF ∨ (0xDE00 ≤ cp ∧ cp ≤ 0x10FFFF)
    · rw [if_pos hc]
      by_cases hv : cp.isValidChar
      · rw [dif_pos hv]
        refine (Parses.pure _).congr ?_ ?_
        · intro bs v
          refine and_congr_right (fun _ => ?_)
          constructor
          · rintro rfl; rfl
          · rintro rfl; rfl
        · intro bs e
          constructor
          · exact False.elim
          · rintro ⟨_, h, _⟩; omega
      · rw [dif_neg hv]
        refine (Parses.ub _).congr ?_ ?_
        · intro bs v
          constructor
          · exact False.elim
          · rintro ⟨_, rfl⟩; exact hv v.valid
        · intro bs e
          constructor
          · exact False.elim
          · rintro ⟨_, h, _⟩; omega
    · rw [if_neg hc]
      refine (Parses.fail _).congr ?_ ?_
      · intro bs v
        constructor
        · exact False.elim
        · rintro ⟨_, rfl⟩
          have hv : v.toNat.isValidChar := v.valid
          rcases hv with h | h <;> omega
      · intro bs e
        constructor
        · rintro ⟨rfl, rfl⟩; exact ⟨rfl, by omega, rfl⟩
        · rintro ⟨rfl, _, rfl⟩; exact ⟨rfl, rfl⟩
  refine ((decNum_parses 4).bind h1).congr ?_ ?_
  · intro bs v
    constructor
    · rintro ⟨_, b1, b2, rfl, ⟨_, rfl⟩, rfl, rfl⟩; rw [List.append_nil]
    · rintro rfl
      have hv : v.toNat.isValidChar := v.valid
      exact ⟨_, _, [], (List.append_nil _).symm, ⟨by rcases hv with h | h <;> omega, rfl⟩, rfl, rfl⟩
  · intro bs e
    constructor
    · rintro (h | ⟨x, b1, b2, rfl, ⟨hx, rfl⟩, rfl, h, rfl⟩)
      · exact h.elim
      · exact ⟨x, hx, h, by rw [List.append_nil], rfl⟩
    · rintro ⟨x, hx, h, rfl, rfl⟩
      exact .inr ⟨x, _, [], (List.append_nil _).symm, ⟨hx, rfl⟩, rfl, h, rfl⟩

theorem decNonZero_parses (r : Repr) :
    Parses (decNonZero r) (fun bs v => ReprEncodable r v.val ∧ bs = reprWire r v.val)
      (fun bs e => bs = reprWire r 0 ∧ e = .nonZero) := by
  have h1 : ∀ x : Int, Parses (if x = 0 then Dec.fail .nonZero
      else if h : r.InRange x ∧ x ≠ 0 then (pure ⟨x, h⟩ : Dec {x : Int // r.InRange x ∧ x ≠ 0})
      else Dec.panic .unreachable) (fun bs v => bs = [] ∧ v.val = x)
      (fun bs e => bs = [] ∧ x = 0 ∧ e = .nonZero) := by
    intro x
    by_cases hz : x = 0
    · rw [if_pos hz]
      refine (Parses.fail _).congr ?_ ?_
      · intro bs v
        exact ⟨False.elim, fun h => v.property.2 (h.2.trans hz)⟩
      · intro bs e
        exact ⟨fun h => ⟨h.1, hz, h.2⟩, fun h => ⟨h.1, h.2.2⟩⟩
    · rw [if_neg hz]
      by_cases hc : r.InRange x ∧ x ≠ 0
      · rw [dif_pos hc]
        refine (Parses.pure _).congr ?_ ?_
        · intro bs v
          exact and_congr_right (fun _ => Subtype.ext_iff)
        · intro bs e
          exact ⟨False.elim, fun h => hz h.2.1⟩
      · rw [dif_neg hc]
        refine (Parses.panic _).congr ?_ ?_
        · intro bs v
          exact ⟨False.elim, fun h => hc (h.2 ▸ v.property)⟩
        · intro bs e
          exact ⟨False.elim, fun h => hz h.2.1⟩
  refine ((decRepr_parses r).bind h1).congr ?_ ?_
  · intro bs v
    constructor
    · rintro ⟨_, b1, b2, rfl, ⟨h1, _, rfl⟩, rfl, rfl⟩
      exact ⟨h1, List.append_nil _⟩
    · rintro ⟨h1, rfl⟩
      exact ⟨_, _, [], (List.append_nil _).symm, ⟨h1, v.property.1, rfl⟩, rfl, rfl⟩
  · intro bs e
    constructor
    · rintro (h | ⟨x, b1, b2, rfl, ⟨_, _, rfl⟩, rfl, rfl, rfl⟩)
      · exact h.elim
      · exact ⟨List.append_nil _, rfl⟩
    · rintro ⟨rfl, rfl⟩
      refine .inr ⟨0, _, [], (List.append_nil _).symm, ⟨?_, ?_, rfl⟩, rfl, rfl, rfl⟩
      · cases r <;> simp [ReprEncodable]
      · cases r with
        | int k => cases k <;> decide
        | usize => exact Int.le_refl 0
        | isize => trivial

/-! Collections. -/

section
variable {A : List Byte → α → Prop} {R : List Byte → DecErr → Prop} {dec : Dec α}

theorem decItems_parses (h : Parses dec A R) : (n i : Nat) →
    Parses (decItems dec n i) (fun bs v => Each A bs v.val)
      (fun bs e => ∃ (l : List α) (b1 b2 : List Byte) (e' : DecErr), l.length < n ∧ bs = b1 ++ b2 ∧
        Each A b1 l ∧ R b2 e' ∧ e = .badItem (.item (i + l.length) e'))
  | 0, i => by
    refine (Parses.pure _).congr ?_ ?_
    · rintro bs ⟨v, hv⟩
      have : v = [] := List.length_eq_zero_iff.mp hv
      subst this
      constructor
      · rintro ⟨rfl, _⟩; exact .nil
      · intro h; cases h; exact ⟨rfl, rfl⟩
    · intro bs e
      constructor
      · exact False.elim
      · rintro ⟨l, _, _, _, h, _⟩; exact absurd h (Nat.not_lt_zero _)
  | n + 1, i => by
    refine ((h.mapErr (fun e => .badItem (.item i e))).bind (fun v =>
      (decItems_parses h n (i + 1)).map (fun vs =>
        (⟨v :: vs.val, by simp [vs.property]⟩ : Items α (n + 1))))).congr ?_ ?_
    · intro bs v
      constructor
      · rintro ⟨a, b1, b2, rfl, hA, vs, hE, rfl⟩
        exact .cons hA hE
      · obtain ⟨v, hv⟩ := v
        intro hE0
        have hE' : Each A bs v := hE0
        clear hE0
        cases hE' with
        | nil => simp at hv
        | @cons b bs a l hA hE =>
          exact ⟨a, b, bs, rfl, hA, ⟨l, by simpa using hv⟩, hE, rfl⟩
    · intro bs e
      constructor
      · rintro (⟨e', hR, rfl⟩ | ⟨a, b1, b2, rfl, hA, l, b3, b4, e', hl, rfl, hE, hR, rfl⟩)
        · exact ⟨[], [], bs, e', Nat.succ_pos n, rfl, .nil, hR, rfl⟩
        · refine ⟨a :: l, b1 ++ b3, b4, e', Nat.succ_lt_succ hl, by rw [List.append_assoc],
            .cons hA hE, hR, ?_⟩
          rw [List.length_cons]; congr 2; omega
      · rintro ⟨l, b1, b2, e', hl, rfl, hE, hR, rfl⟩
        cases hE with
        | nil => exact .inl ⟨e', hR, rfl⟩
        | @cons b bs a l hA hE =>
          refine .inr ⟨a, b, bs ++ b2, by rw [List.append_assoc], hA, l, bs, b2, e',
            Nat.lt_of_succ_lt_succ hl, rfl, hE, hR, ?_⟩
          rw [List.length_cons]; congr 2; omega

theorem decItems_parses' (h : Parses dec A R) (n : Nat) :
    Parses (decItems dec n 0) (fun bs v => Each A bs v.val) (ItemRejected A R n) := by
  refine (decItems_parses h n 0).congr (fun _ _ => Iff.rfl) ?_
  intro bs e
  unfold ItemRejected
  simp only [Nat.zero_add]

theorem decSeq_parses (h : Parses dec A R) :
    Parses (decSeq dec) (fun bs v => ∃ r, v.length ≤ 65535 ∧ bs = leBytes 2 v.length ++ r ∧ Each A r v)
      (fun bs e => ∃ n r, n ≤ 65535 ∧ bs = leBytes 2 n ++ r ∧ ItemRejected A R n r e) := by
  refine (decUsize_parses.bind (fun n =>
    (decItems_parses' h n).map (fun vs : Items α n => vs.val))).congr ?_ ?_
  · intro bs v
    constructor
    · rintro ⟨n, b1, b2, rfl, ⟨hn, rfl⟩, vs, hE, rfl⟩
      refine ⟨b2, ?_, ?_, hE⟩
      · rw [vs.property]; exact hn
      · rw [vs.property]
    · rintro ⟨r, hn, rfl, hE⟩
      exact ⟨v.length, _, r, rfl, ⟨hn, rfl⟩, ⟨v, rfl⟩, hE, rfl⟩
  · intro bs e
    constructor
    · rintro (h | ⟨n, b1, b2, rfl, ⟨hn, rfl⟩, hR⟩)
      · exact h.elim
      · exact ⟨n, b2, hn, rfl, hR⟩
    · rintro ⟨n, r, hn, rfl, hR⟩
      exact .inr ⟨n, _, r, rfl, ⟨hn, rfl⟩, hR⟩

theorem decSizedSlice_parses (h : Parses dec A R) (n : Nat) :
    Parses (decSizedSlice dec n)
      (fun bs v => ∃ (l : List α) (r : List UInt8), l.length = n ∧ v.val.length ≤ 65535 ∧
        bs = leBytes 2 v.val.length ++ r ∧ Each A r l ∧ v.val <+: l)
      (fun bs e => ∃ k r, k ≤ 65535 ∧ bs = leBytes 2 k ++ r ∧
        (n < k ∧ r = [] ∧ e = .badLength (.length n k) ∨ k ≤ n ∧ ItemRejected A R n r e)) := by
  have h1 : ∀ k : Nat, Parses (if k > n then Dec.fail (.badLength (.length n k)) else do
      let vs ← decItems dec n 0
      pure (⟨vs.val.take k, by simp [List.length_take, vs.property]; omega⟩ :
        {l : List α // l.length ≤ n}))
      (fun bs v => ∃ l : List α, l.length = n ∧ k ≤ n ∧ Each A bs l ∧ v.val = l.take k)
      (fun bs e => n < k ∧ bs = [] ∧ e = .badLength (.length n k) ∨
        k ≤ n ∧ ItemRejected A R n bs e) := by
    intro k
    by_cases hk : k > n
    · rw [if_pos hk]
      refine (Parses.fail _).congr ?_ ?_
      · intro bs v
        refine ⟨False.elim, ?_⟩
        rintro ⟨_, _, h, _⟩; omega
      · intro bs e
        constructor
        · rintro ⟨rfl, rfl⟩; exact .inl ⟨hk, rfl, rfl⟩
        · rintro (⟨_, rfl, rfl⟩ | ⟨h, _⟩)
          · exact ⟨rfl, rfl⟩
          · omega
    · rw [if_neg hk]
      refine ((decItems_parses' h n).map _).congr ?_ ?_
      · intro bs v
        constructor
        · rintro ⟨l, hE, rfl⟩
          exact ⟨l.val, l.property, by omega, hE, rfl⟩
        · rintro ⟨l, hl, _, hE, hv⟩
          exact ⟨⟨l, hl⟩, hE, Subtype.ext hv⟩
      · intro bs e
        constructor
        · intro h; exact .inr ⟨by omega, h⟩
        · rintro (⟨h, _⟩ | ⟨_, h⟩)
          · omega
          · exact h
  refine (decUsize_parses.bind h1).congr ?_ ?_
  · rintro bs ⟨v, hv⟩
    constructor
    · rintro ⟨k, b1, b2, rfl, ⟨hk, rfl⟩, l, hl, hkn, hE, rfl⟩
      have hlen : (l.take k).length = k := by rw [List.length_take]; omega
      refine ⟨l, b2, hl, ?_, ?_, hE, List.take_prefix k l⟩
      · show (l.take k).length ≤ _; omega
      · show _ = leBytes 2 (l.take k).length ++ b2; rw [hlen]
    · rintro ⟨l, r, hl, hk, rfl, hE, hp⟩
      exact ⟨v.length, _, r, rfl, ⟨hk, rfl⟩, l, hl, hv, hE, List.prefix_iff_eq_take.mp hp⟩
  · intro bs e
    constructor
    · rintro (h | ⟨n, b1, b2, rfl, ⟨hn, rfl⟩, hR⟩)
      · exact h.elim
      · exact ⟨n, b2, hn, rfl, hR⟩
    · rintro ⟨n, r, hn, rfl, hR⟩
      exact .inr ⟨n, _, r, rfl, ⟨hn, rfl⟩, hR⟩

end

/-! Maps and sets. -/

theorem mem_firsts [DecidableEq α] (l : List α) (a : α) : a ∈ firsts l ↔ a ∈ l := by
  induction l with
  | nil => simp [firsts]
  | cons b l ih =>
    simp only [firsts, List.mem_cons, List.mem_filter, ih, decide_eq_true_eq, ne_eq]
    constructor
    · rintro (h | h)
      · exact .inl h
      · exact .inr h.1
    · rintro (h | h)
      · exact .inl h
      · by_cases e : a = b
        · exact .inl e
        · exact .inr ⟨h, e⟩

theorem firsts_snoc [DecidableEq α] (l : List α) (a : α) :
    firsts (l ++ [a]) = if a ∈ l then firsts l else firsts l ++ [a] := by
  induction l with
  | nil => simp [firsts]
  | cons b l ih =>
    rw [List.cons_append, firsts, ih]
    by_cases ha : a ∈ l
    · rw [if_pos ha, if_pos (List.mem_cons_of_mem _ ha), firsts]
    · rw [if_neg ha, List.filter_append]
      by_cases hb : a = b
      · subst hb
        rw [if_pos List.mem_cons_self]
        simp [firsts]
      · rw [if_neg (by simp [hb, ha]), firsts]
        simp [hb]

theorem setInsert_foldl [DecidableEq α] (l : List α) :
    l.foldl (fun s k => setInsert k s) [] = firsts l := by
  induction h : l.length generalizing l with
  | zero => rw [List.length_eq_zero_iff.mp h]; rfl
  | succ n ih =>
    have hne : l ≠ [] := by rintro rfl; cases h
    have hs := List.dropLast_concat_getLast hne
    rw [← hs, List.foldl_append, ih _ (by simp [h]), firsts_snoc]
    simp only [List.foldl_cons, List.foldl_nil, setInsert, mem_firsts]

theorem mapInsert_keys [DecidableEq α] (k : α) (v : β) (m : List (α × β)) :
    (mapInsert k v m).map Prod.fst =
      if k ∈ m.map Prod.fst then m.map Prod.fst else m.map Prod.fst ++ [k] := by
  induction m with
  | nil => simp [mapInsert]
  | cons p m ih =>
    obtain ⟨k', v'⟩ := p
    unfold mapInsert
    by_cases h : k' = k
    · subst h; simp
    · have h' : ¬ k = k' := fun e => h e.symm
      rw [if_neg h, List.map_cons, ih]
      by_cases hm : k ∈ m.map Prod.fst
      · rw [if_pos hm, if_pos (by simp only [List.map_cons]; exact List.mem_cons_of_mem _ hm),
          List.map_cons]
      · rw [if_neg hm, if_neg (by simp only [List.map_cons, List.mem_cons, h', false_or]; exact hm)]
        rfl

theorem mem_mapInsert [DecidableEq α] (k : α) (v : β) (m : List (α × β))
    (hn : (m.map Prod.fst).Nodup) (p : α × β) (h : p ∈ mapInsert k v m) :
    p = (k, v) ∨ p ∈ m ∧ p.1 ≠ k := by
  induction m with
  | nil => simp [mapInsert] at h; exact .inl h
  | cons q m ih =>
    obtain ⟨k', v'⟩ := q
    rw [List.map_cons, List.nodup_cons] at hn
    unfold mapInsert at h
    by_cases hk : k' = k
    · subst hk
      rw [if_pos rfl] at h
      rcases List.mem_cons.mp h with h | h
      · exact .inl h
      · refine .inr ⟨List.mem_cons_of_mem _ h, fun e => hn.1 ?_⟩
        rw [← e]; exact List.mem_map.mpr ⟨p, h, rfl⟩
    · rw [if_neg hk] at h
      rcases List.mem_cons.mp h with rfl | h
      · exact .inr ⟨List.mem_cons_self, hk⟩
      · rcases ih hn.2 h with h | ⟨h, h'⟩
        · exact .inl h
        · exact .inr ⟨List.mem_cons_of_mem _ h, h'⟩

theorem firsts_nodup [DecidableEq α] (l : List α) : (firsts l).Nodup := by
  induction l with
  | nil => exact List.nodup_nil
  | cons a l ih =>
    rw [firsts, List.nodup_cons]
    exact ⟨by simp, ih.filter _⟩

theorem mapInsert_foldl [DecidableEq α] (l : List (α × β)) :
    MapOf l (l.foldl (fun m p => mapInsert p.1 p.2 m) []) := by
  induction h : l.length generalizing l with
  | zero =>
    rw [List.length_eq_zero_iff.mp h]
    exact ⟨rfl, fun p hp => nomatch hp⟩
  | succ n ih =>
    have hne : l ≠ [] := by rintro rfl; cases h
    have hs := List.dropLast_concat_getLast hne
    generalize l.getLast hne = q at hs
    obtain ⟨k, v⟩ := q
    obtain ⟨h1, h2⟩ := ih l.dropLast (by simp [h])
    generalize hm : l.dropLast.foldl (fun m p => mapInsert p.1 p.2 m) [] = m at h1 h2
    generalize l.dropLast = l0 at hs hm h1 h2
    subst hs
    rw [List.foldl_append, hm]
    refine ⟨?_, ?_⟩
    · show (mapInsert k v m).map Prod.fst = _
      rw [mapInsert_keys, h1, List.map_append, List.map_cons, List.map_nil, firsts_snoc]
      simp only [mem_firsts]
    · intro p hp
      have hn : (m.map Prod.fst).Nodup := by rw [h1]; exact firsts_nodup _
      rcases mem_mapInsert k v m hn p hp with rfl | ⟨hp, hpk⟩
      · exact ⟨l0, [], rfl, by simp⟩
      · obtain ⟨l1, l2, rfl, h3⟩ := h2 p hp
        refine ⟨l1, l2 ++ [(k, v)], by simp, ?_⟩
        rw [List.map_append, List.mem_append]
        rintro (h | h)
        · exact h3 h
        · simp at h; exact hpk h

/-- The last entry with a key is unique. -/
theorem last_unique (l1 l2 l1' l2' : List (α × β)) (k : α) (v v' : β)
    (h : l1 ++ (k, v) :: l2 = l1' ++ (k, v') :: l2') (h2 : k ∉ l2.map Prod.fst)
    (h2' : k ∉ l2'.map Prod.fst) : v = v' := by
  rcases List.append_eq_append_iff.mp h with ⟨m, rfl, hm⟩ | ⟨m, rfl, hm⟩
  · cases m with
    | nil => simp at hm; exact hm.1
    | cons q m =>
      rw [List.cons_append] at hm
      injection hm with e1 e2
      rw [e2] at h2
      simp at h2
  · cases m with
    | nil => simp at hm; exact hm.1.symm
    | cons q m =>
      rw [List.cons_append] at hm
      injection hm with e1 e2
      rw [e2] at h2'
      simp at h2'

theorem mapOf_unique [DecidableEq α] (l m m' : List (α × β)) (h : MapOf l m) (h' : MapOf l m') :
    m = m' := by
  have hk : m.map Prod.fst = m'.map Prod.fst := h.1.trans h'.1.symm
  have hl : m.length = m'.length := by simpa using congrArg List.length hk
  apply List.ext_getElem hl
  intro j hj hj'
  have hf : m[j].1 = m'[j].1 := by
    have := congrArg (·[j]?) hk
    simp only [List.getElem?_map, List.getElem?_eq_getElem hj, List.getElem?_eq_getElem hj',
      Option.map_some, Option.some.injEq] at this
    exact this
  obtain ⟨l1, l2, e, hn⟩ := h.2 m[j] (List.getElem_mem hj)
  obtain ⟨l1', l2', e', hn'⟩ := h'.2 m'[j] (List.getElem_mem hj')
  generalize m[j] = p at hf e hn
  generalize m'[j] = p' at hf e' hn'
  obtain ⟨k, v⟩ := p
  obtain ⟨k', v'⟩ := p'
  obtain rfl : k = k' := hf
  rw [last_unique l1 l2 l1' l2' k v v' (e.symm.trans e') hn hn']

theorem mapOf_iff [DecidableEq α] (l m : List (α × β)) :
    MapOf l m ↔ m = l.foldl (fun m p => mapInsert p.1 p.2 m) [] :=
  ⟨fun h => mapOf_unique l _ _ h (mapInsert_foldl l), fun h => h ▸ mapInsert_foldl l⟩

section
variable {A : List Byte → α → Prop} {R : List Byte → DecErr → Prop} {decK : Dec α}
variable {B : List Byte → β → Prop} {S : List Byte → DecErr → Prop} {decV : Dec β}

theorem decMapLoop_parses [DecidableEq α] (hk : Parses decK A R) (hv : Parses decV B S) :
    (n i : Nat) → (m : MapVal α β) → Parses (decMapLoop decK decV n i m)
      (fun bs v => ∃ l : List (α × β), l.length = n ∧ Each (fun b p => Both A B b p.1 p.2) bs l ∧
        v.val = l.foldl (fun m p => mapInsert p.1 p.2 m) m.val)
      (fun bs e => ∃ (l : List (α × β)) (b1 b2 : List Byte) (e' : DecErr), l.length < n ∧
        bs = b1 ++ b2 ∧ Each (fun b p => Both A B b p.1 p.2) b1 l ∧ PartRejected A R S b2 e' ∧
        e = .badItem (.item (i + l.length) e'))
  | 0, i, m => by
    refine (Parses.pure _).congr ?_ ?_
    · intro bs v
      constructor
      · rintro ⟨rfl, rfl⟩; exact ⟨[], rfl, .nil, rfl⟩
      · rintro ⟨l, hl, hE, h⟩
        rw [List.length_eq_zero_iff] at hl
        subst hl
        cases hE
        exact ⟨rfl, Subtype.ext h⟩
    · intro bs e
      constructor
      · exact False.elim
      · rintro ⟨l, _, _, _, h, _⟩; exact absurd h (Nat.not_lt_zero _)
  | n + 1, i, m => by
    refine ((hk.mapErr (fun e => .badItem (.item i e))).bind (fun k =>
      (hv.mapErr (fun e => .badItem (.item i e))).bind (fun v =>
        decMapLoop_parses hk hv n (i + 1) _))).congr ?_ ?_
    · intro bs r
      constructor
      · rintro ⟨k, b1, _, rfl, hA, v, b2, b3, rfl, hB, l, rfl, hE, hr⟩
        refine ⟨(k, v) :: l, rfl, ?_, hr⟩
        rw [← List.append_assoc]
        exact .cons ⟨b1, b2, rfl, hA, hB⟩ hE
      · rintro ⟨l, hl, hE, hr⟩
        cases hE with
        | nil => cases hl
        | @cons b bs p l hP hE =>
          obtain ⟨b1, b2, rfl, hA, hB⟩ := hP
          exact ⟨p.1, b1, b2 ++ bs, by rw [List.append_assoc], hA, p.2, b2, bs, rfl, hB, l,
            Nat.succ.inj hl, hE, hr⟩
    · intro bs e
      constructor
      · rintro (⟨e', hR, rfl⟩ | ⟨k, b1, _, rfl, hA, ⟨e', hS, rfl⟩ |
          ⟨v, b2, b3, rfl, hB, l, b4, b5, e', hl, rfl, hE, hR, rfl⟩⟩)
        · exact ⟨[], [], bs, e', Nat.succ_pos n, rfl, .nil, .inl hR, rfl⟩
        · exact ⟨[], [], _, e', Nat.succ_pos n, rfl, .nil, .inr ⟨k, b1, _, rfl, hA, hS⟩, rfl⟩
        · refine ⟨(k, v) :: l, (b1 ++ b2) ++ b4, b5, e', Nat.succ_lt_succ hl, by simp,
            .cons ⟨b1, b2, rfl, hA, hB⟩ hE, hR, ?_⟩
          rw [List.length_cons]; congr 2; omega
      · rintro ⟨l, b1, b2, e', hl, rfl, hE, hR, rfl⟩
        cases hE with
        | nil =>
          rcases hR with hR | ⟨k, b3, b4, rfl, hA, hS⟩
          · exact .inl ⟨e', hR, rfl⟩
          · exact .inr ⟨k, b3, b4, rfl, hA, .inl ⟨e', hS, rfl⟩⟩
        | @cons b bs p l hP hE =>
          obtain ⟨b3, b4, rfl, hA, hB⟩ := hP
          refine .inr ⟨p.1, b3, b4 ++ (bs ++ b2), by simp, hA, .inr ⟨p.2, b4, bs ++ b2, rfl, hB,
            l, bs, b2, e', Nat.lt_of_succ_lt_succ hl, rfl, hE, hR, ?_⟩⟩
          rw [List.length_cons]; congr 2; omega

theorem decHashMap_parses [DecidableEq α] (hk : Parses decK A R) (hv : Parses decV B S) :
    Parses (decHashMap decK decV)
      (fun bs m => ∃ (l : List (α × β)) (r : List UInt8), l.length ≤ 65535 ∧
        bs = leBytes 2 l.length ++ r ∧ Each (fun b p => Both A B b p.1 p.2) r l ∧ MapOf l m.val)
      (fun bs e => ∃ n r, n ≤ 65535 ∧ bs = leBytes 2 n ++ r ∧
        ItemRejected (fun b (p : α × β) => Both A B b p.1 p.2) (PartRejected A R S) n r e) := by
  refine (decUsize_parses.bind (fun n => decMapLoop_parses hk hv n 0 ⟨[], List.nodup_nil⟩)).congr ?_ ?_
  · intro bs v
    constructor
    · rintro ⟨_, b1, b2, rfl, ⟨hn, rfl⟩, l, rfl, hE, h⟩
      exact ⟨l, b2, hn, rfl, hE, (mapOf_iff _ _).mpr h⟩
    · rintro ⟨l, r, hn, rfl, hE, h⟩
      exact ⟨_, _, r, rfl, ⟨hn, rfl⟩, l, rfl, hE, (mapOf_iff _ _).mp h⟩
  · intro bs e
    unfold ItemRejected
    simp only [Nat.zero_add]
    constructor
    · rintro (h | ⟨n, b1, b2, rfl, ⟨hn, rfl⟩, hR⟩)
      · exact h.elim
      · exact ⟨n, b2, hn, rfl, hR⟩
    · rintro ⟨n, r, hn, rfl, hR⟩
      exact .inr ⟨n, _, r, rfl, ⟨hn, rfl⟩, hR⟩

theorem decSetLoop_parses [DecidableEq α] (hk : Parses decK A R) :
    (n i : Nat) → (m : SetVal α) → Parses (decSetLoop decK n i m)
      (fun bs v => ∃ l : List α, l.length = n ∧ Each A bs l ∧
        v.val = l.foldl (fun s k => setInsert k s) m.val)
      (fun bs e => ∃ (l : List α) (b1 b2 : List Byte) (e' : DecErr), l.length < n ∧
        bs = b1 ++ b2 ∧ Each A b1 l ∧ R b2 e' ∧ e = .badItem (.item (i + l.length) e'))
  | 0, i, m => by
    refine (Parses.pure _).congr ?_ ?_
    · intro bs v
      constructor
      · rintro ⟨rfl, rfl⟩; exact ⟨[], rfl, .nil, rfl⟩
      · rintro ⟨l, hl, hE, h⟩
        rw [List.length_eq_zero_iff] at hl
        subst hl
        cases hE
        exact ⟨rfl, Subtype.ext h⟩
    · intro bs e
      constructor
      · exact False.elim
      · rintro ⟨l, _, _, _, h, _⟩; exact absurd h (Nat.not_lt_zero _)
  | n + 1, i, m => by
    refine ((hk.mapErr (fun e => .badItem (.item i e))).bind (fun k =>
        decSetLoop_parses hk n (i + 1) _)).congr ?_ ?_
    · intro bs r
      constructor
      · rintro ⟨k, b1, b2, rfl, hA, l, rfl, hE, hr⟩
        exact ⟨k :: l, rfl, .cons hA hE, hr⟩
      · rintro ⟨l, hl, hE, hr⟩
        cases hE with
        | nil => cases hl
        | @cons b bs p l hA hE =>
          exact ⟨p, b, bs, rfl, hA, l, Nat.succ.inj hl, hE, hr⟩
    · intro bs e
      constructor
      · rintro (⟨e', hR, rfl⟩ | ⟨a, b1, b2, rfl, hA, l, b3, b4, e', hl, rfl, hE, hR, rfl⟩)
        · exact ⟨[], [], bs, e', Nat.succ_pos n, rfl, .nil, hR, rfl⟩
        · refine ⟨a :: l, b1 ++ b3, b4, e', Nat.succ_lt_succ hl, by rw [List.append_assoc],
            .cons hA hE, hR, ?_⟩
          rw [List.length_cons]; congr 2; omega
      · rintro ⟨l, b1, b2, e', hl, rfl, hE, hR, rfl⟩
        cases hE with
        | nil => exact .inl ⟨e', hR, rfl⟩
        | @cons b bs a l hA hE =>
          refine .inr ⟨a, b, bs ++ b2, by rw [List.append_assoc], hA, l, bs, b2, e',
            Nat.lt_of_succ_lt_succ hl, rfl, hE, hR, ?_⟩
          rw [List.length_cons]; congr 2; omega

theorem decHashSet_parses [DecidableEq α] (hk : Parses decK A R) :
    Parses (decHashSet decK)
      (fun bs s => ∃ (l : List α) (r : List UInt8), l.length ≤ 65535 ∧
        bs = leBytes 2 l.length ++ r ∧ Each A r l ∧ s.val = firsts l)
      (fun bs e => ∃ n r, n ≤ 65535 ∧ bs = leBytes 2 n ++ r ∧ ItemRejected A R n r e) := by
  refine (decUsize_parses.bind (fun n => decSetLoop_parses hk n 0 ⟨[], List.nodup_nil⟩)).congr ?_ ?_
  · intro bs v
    constructor
    · rintro ⟨_, b1, b2, rfl, ⟨hn, rfl⟩, l, rfl, hE, h⟩
      exact ⟨l, b2, hn, rfl, hE, h.trans (setInsert_foldl l)⟩
    · rintro ⟨l, r, hn, rfl, hE, h⟩
      exact ⟨_, _, r, rfl, ⟨hn, rfl⟩, l, rfl, hE, h.trans (setInsert_foldl l).symm⟩
  · intro bs e
    unfold ItemRejected
    simp only [Nat.zero_add]
    constructor
    · rintro (h | ⟨n, b1, b2, rfl, ⟨hn, rfl⟩, hR⟩)
      · exact h.elim
      · exact ⟨n, b2, hn, rfl, hR⟩
    · rintro ⟨n, r, hn, rfl, hR⟩
      exact .inr ⟨n, _, r, rfl, ⟨hn, rfl⟩, hR⟩

end

/-! Single values. -/

section
variable {A : List Byte → α → Prop} {R : List Byte → DecErr → Prop} {dec : Dec α}
variable {B : List Byte → β → Prop} {S : List Byte → DecErr → Prop} {dec' : Dec β}

theorem decOption_parses (h : Parses dec A R) :
    Parses (decOption dec)
      (fun bs v => match v with
        | none => bs = [0]
        | some v => ∃ b r, b ≠ 0 ∧ bs = b :: r ∧ A r v)
      (fun bs e => ∃ b r, b ≠ 0 ∧ bs = b :: r ∧ R r e) := by
  have h1 : ∀ s : Bool, Parses (if s = true then dec >>= fun v => pure (some v) else pure none)
      (fun bs v => match v with
        | none => s = false ∧ bs = []
        | some v => s = true ∧ A bs v) (fun bs e => s = true ∧ R bs e) := by
    intro s
    cases s with
    | true =>
      rw [if_pos rfl]
      refine (h.map some).congr ?_ ?_
      · intro bs v
        cases v with
        | none => simp
        | some v => simp
      · intro bs e; simp
    | false =>
      rw [if_neg (by simp)]
      refine (Parses.pure none).congr ?_ ?_
      · intro bs v
        cases v with
        | none => simp
        | some v => simp
      · intro bs e; simp
  refine (decBool_parses.bind h1).congr ?_ ?_
  · intro bs v
    cases v with
    | none =>
      constructor
      · rintro ⟨_, b1, b2, rfl, ⟨b, rfl, hb⟩, rfl, rfl⟩
        have : b = 0 := by simpa using hb
        subst this; rfl
      · rintro rfl
        exact ⟨false, [0], [], rfl, ⟨0, rfl, by simp⟩, rfl, rfl⟩
    | some v =>
      constructor
      · rintro ⟨_, b1, b2, rfl, ⟨b, rfl, hb⟩, rfl, hA⟩
        exact ⟨b, b2, hb.mp rfl, rfl, hA⟩
      · rintro ⟨b, r, hb, rfl, hA⟩
        exact ⟨true, [b], r, rfl, ⟨b, rfl, by simp [hb]⟩, rfl, hA⟩
  · intro bs e
    constructor
    · rintro (h | ⟨_, b1, b2, rfl, ⟨b, rfl, hb⟩, rfl, hR⟩)
      · exact h.elim
      · exact ⟨b, b2, hb.mp rfl, rfl, hR⟩
    · rintro ⟨b, r, hb, rfl, hR⟩
      exact .inr ⟨true, [b], r, rfl, ⟨b, rfl, by simp [hb]⟩, rfl, hR⟩

theorem decResult_parses (h : Parses dec A R) (h' : Parses dec' B S) :
    Parses (decResult dec dec')
      (fun bs v => match v with
        | .ok v => ∃ r, bs = 0 :: r ∧ A r v
        | .err v => ∃ b r, b ≠ 0 ∧ bs = b :: r ∧ B r v)
      (fun bs e => ∃ b r e', bs = b :: r ∧ e = .badField e' ∧ (b = 0 ∧ R r e' ∨ b ≠ 0 ∧ S r e')) := by
  have h1 : ∀ s : Bool, Parses (if s = true then dec'.mapErr .badField >>= fun v => pure (.err v)
      else dec.mapErr .badField >>= fun v => pure (.ok v))
      (fun bs (v : ResultVal α β) => match v with
        | .ok v => s = false ∧ A bs v
        | .err v => s = true ∧ B bs v)
      (fun bs e => ∃ e', e = .badField e' ∧ (s = false ∧ R bs e' ∨ s = true ∧ S bs e')) := by
    intro s
    cases s with
    | true =>
      rw [if_pos rfl]
      refine ((h'.mapErr .badField).map ResultVal.err).congr ?_ ?_
      · intro bs v
        cases v with
        | ok v => simp
        | err v => simp
      · intro bs e; simp [and_comm]
    | false =>
      rw [if_neg (by simp)]
      refine ((h.mapErr .badField).map ResultVal.ok).congr ?_ ?_
      · intro bs v
        cases v with
        | ok v => simp
        | err v => simp
      · intro bs e; simp [and_comm]
  refine (decBool_parses.bind h1).congr ?_ ?_
  · intro bs v
    cases v with
    | ok v =>
      constructor
      · rintro ⟨_, b1, b2, rfl, ⟨b, rfl, hb⟩, rfl, hA⟩
        have : b = 0 := by simpa using hb
        subst this; exact ⟨b2, rfl, hA⟩
      · rintro ⟨r, rfl, hA⟩
        exact ⟨false, [0], r, rfl, ⟨0, rfl, by simp⟩, rfl, hA⟩
    | err v =>
      constructor
      · rintro ⟨_, b1, b2, rfl, ⟨b, rfl, hb⟩, rfl, hA⟩
        exact ⟨b, b2, hb.mp rfl, rfl, hA⟩
      · rintro ⟨b, r, hb, rfl, hA⟩
        exact ⟨true, [b], r, rfl, ⟨b, rfl, by simp [hb]⟩, rfl, hA⟩
  · intro bs e
    constructor
    · rintro (h | ⟨s, b1, b2, rfl, ⟨b, rfl, hb⟩, e', rfl, ⟨rfl, hR⟩ | ⟨rfl, hS⟩⟩)
      · exact h.elim
      · exact ⟨b, b2, e', rfl, rfl, .inl ⟨by simpa using hb, hR⟩⟩
      · exact ⟨b, b2, e', rfl, rfl, .inr ⟨by simpa using hb, hS⟩⟩
    · rintro ⟨b, r, e', rfl, rfl, ⟨rfl, hR⟩ | ⟨hb, hS⟩⟩
      · exact .inr ⟨false, [0], r, rfl, ⟨0, rfl, by simp⟩, e', rfl, .inl ⟨rfl, hR⟩⟩
      · exact .inr ⟨true, [b], r, rfl, ⟨b, rfl, by simp [hb]⟩, e', rfl, .inr ⟨rfl, hS⟩⟩

theorem byte_eq_of_toNat (b : UInt8) (n : Nat) (hn : n < 256) (h : b.toNat = n) :
    b = UInt8.ofNat n := by
  rw [← h, UInt8.ofNat_toNat]

theorem decBound_parses (h : Parses dec A R) :
    Parses (decBound dec)
      (fun bs v => match v with
        | .included v => ∃ r, bs = 0 :: r ∧ A r v
        | .excluded v => ∃ r, bs = 1 :: r ∧ A r v
        | .unbounded => bs = [2])
      (fun bs e => (∃ b r e', (b = 0 ∨ b = 1) ∧ bs = b :: r ∧ e = .badField e' ∧ R r e') ∨
        ∃ b : UInt8, 2 < b.toNat ∧ bs = [b] ∧ e = .unassigned b.toNat) := by
  have h1 : ∀ d : Nat, Parses (if d = 0 then dec.mapErr .badField >>= fun b => pure (.included b)
      else if d = 1 then dec.mapErr .badField >>= fun b => pure (.excluded b)
      else if d = 2 then pure .unbounded else Dec.fail (.unassigned d))
      (fun bs (v : BoundVal α) => match v with
        | .included v => d = 0 ∧ A bs v
        | .excluded v => d = 1 ∧ A bs v
        | .unbounded => d = 2 ∧ bs = [])
      (fun bs e => (∃ e', e = .badField e' ∧ (d = 0 ∨ d = 1) ∧ R bs e') ∨
        2 < d ∧ bs = [] ∧ e = .unassigned d) := by
    intro d
    match d with
    | 0 =>
      refine ((h.mapErr .badField).map BoundVal.included).congr ?_ ?_
      · intro bs v; cases v <;> simp
      · intro bs e; simp [and_comm]
    | 1 =>
      refine ((h.mapErr .badField).map BoundVal.excluded).congr ?_ ?_
      · intro bs v; cases v <;> simp
      · intro bs e; simp [and_comm]
    | 2 =>
      refine (Parses.pure BoundVal.unbounded).congr ?_ ?_
      · intro bs v; cases v <;> simp
      · intro bs e; simp
    | d + 3 =>
      rw [if_neg (by omega), if_neg (by omega), if_neg (by omega)]
      refine (Parses.fail _).congr ?_ ?_
      · intro bs v; cases v <;> simp
      · intro bs e; simp
  refine (decU8_parses.bind h1).congr ?_ ?_
  · intro bs v
    cases v with
    | included v =>
      constructor
      · rintro ⟨_, b1, b2, rfl, ⟨b, rfl, rfl⟩, hb, hA⟩
        exact ⟨b2, by rw [byte_eq_of_toNat b 0 (by omega) hb]; rfl, hA⟩
      · rintro ⟨r, rfl, hA⟩
        exact ⟨0, [0], r, rfl, ⟨0, rfl, rfl⟩, rfl, hA⟩
    | excluded v =>
      constructor
      · rintro ⟨_, b1, b2, rfl, ⟨b, rfl, rfl⟩, hb, hA⟩
        exact ⟨b2, by rw [byte_eq_of_toNat b 1 (by omega) hb]; rfl, hA⟩
      · rintro ⟨r, rfl, hA⟩
        exact ⟨1, [1], r, rfl, ⟨1, rfl, rfl⟩, rfl, hA⟩
    | unbounded =>
      constructor
      · rintro ⟨_, b1, b2, rfl, ⟨b, rfl, rfl⟩, hb, rfl⟩
        rw [byte_eq_of_toNat b 2 (by omega) hb]; rfl
      · rintro rfl
        exact ⟨2, [2], [], rfl, ⟨2, rfl, rfl⟩, rfl, rfl⟩
  · intro bs e
    constructor
    · rintro (h | ⟨_, b1, b2, rfl, ⟨b, rfl, rfl⟩, ⟨e', rfl, hb, hR⟩ | ⟨hb, rfl, rfl⟩⟩)
      · exact h.elim
      · refine .inl ⟨b, b2, e', ?_, rfl, rfl, hR⟩
        rcases hb with hb | hb
        · exact .inl (byte_eq_of_toNat b 0 (by omega) hb)
        · exact .inr (byte_eq_of_toNat b 1 (by omega) hb)
      · exact .inr ⟨b, hb, rfl, rfl⟩
    · rintro (⟨b, r, e', hb, rfl, rfl, hR⟩ | ⟨b, hb, rfl, rfl⟩)
      · refine .inr ⟨b.toNat, [b], r, rfl, ⟨b, rfl, rfl⟩, .inl ⟨e', rfl, ?_, hR⟩⟩
        rcases hb with rfl | rfl
        · exact .inl rfl
        · exact .inr rfl
      · exact .inr ⟨b.toNat, [b], [], rfl, ⟨b, rfl, rfl⟩, .inr ⟨hb, rfl, rfl⟩⟩

theorem two_parses (h : Parses dec A R) (h' : Parses dec' B S) (f : α → β → γ) :
    Parses (dec >>= fun a => dec' >>= fun b => pure (f a b))
      (fun bs v => ∃ a b, Both A B bs a b ∧ v = f a b) (PartRejected A R S) := by
  refine (h.bind (fun a => h'.map (f a))).congr ?_ (fun _ _ => Iff.rfl)
  intro bs v
  constructor
  · rintro ⟨a, b1, b2, rfl, hA, b, hB, rfl⟩
    exact ⟨a, b, ⟨b1, b2, rfl, hA, hB⟩, rfl⟩
  · rintro ⟨a, b, ⟨b1, b2, rfl, hA, hB⟩, rfl⟩
    exact ⟨a, b1, b2, rfl, hA, b, hB, rfl⟩

theorem decRange_parses (h : Parses dec A R) :
    Parses (decRange dec) (fun bs v => Both A A bs v.start v.stop) (PartRejected A R R) := by
  refine (two_parses h h RangeVal.mk).congr ?_ (fun _ _ => Iff.rfl)
  intro bs v
  constructor
  · rintro ⟨a, b, h, rfl⟩; exact h
  · intro h; exact ⟨_, _, h, rfl⟩

theorem decRangeInclusive_parses (h : Parses dec A R) :
    Parses (decRangeInclusive dec)
      (fun bs v => v.exhausted = false ∧ Both A A bs v.start v.stop) (PartRejected A R R) := by
  refine (two_parses h h (fun a b => RangeInclusiveVal.mk a b false)).congr ?_ (fun _ _ => Iff.rfl)
  intro bs v
  constructor
  · rintro ⟨a, b, h, rfl⟩; exact ⟨rfl, h⟩
  · obtain ⟨a, b, x⟩ := v
    rintro ⟨rfl, h⟩; exact ⟨_, _, h, rfl⟩

theorem decLock_parses (h : Parses dec A R) :
    Parses (decLock dec) (fun bs v => v.poisoned = false ∧ A bs v.val) R := by
  refine (h.map (LockVal.mk false)).congr ?_ (fun _ _ => Iff.rfl)
  intro bs v
  constructor
  · rintro ⟨a, h, rfl⟩; exact ⟨rfl, h⟩
  · obtain ⟨x, a⟩ := v
    rintro ⟨rfl, h⟩; exact ⟨_, h, rfl⟩

theorem decRefCell_parses (h : Parses dec A R) :
    Parses (decRefCell dec) (fun bs v => v.mutBorrowed = false ∧ A bs v.val) R := by
  refine (h.map (RefCellVal.mk false)).congr ?_ (fun _ _ => Iff.rfl)
  intro bs v
  constructor
  · rintro ⟨a, h, rfl⟩; exact ⟨rfl, h⟩
  · obtain ⟨x, a⟩ := v
    rintro ⟨rfl, h⟩; exact ⟨_, h, rfl⟩

end

theorem durationNew_eq (s n : Nat) (v : DurationVal) :
    durationNew s n = some v ↔ v.secs.toNat * nanosPerSec + v.nanos = s * nanosPerSec + n := by
  have hlt := v.nanos_lt
  have hs := v.secs.isLt
  unfold durationNew
  unfold nanosPerSec at *
  by_cases h : s + n / 1000000000 < 2 ^ 64
  · rw [if_pos h]
    have hm : (BitVec.ofNat 64 (s + n / 1000000000)).toNat = s + n / 1000000000 := by
      rw [BitVec.toNat_ofNat, Nat.mod_eq_of_lt h]
    constructor
    · intro e
      injection e with e
      subst e
      show (BitVec.ofNat 64 (s + n / 1000000000)).toNat * 1000000000 + n % 1000000000 = _
      rw [hm]; omega
    · intro e
      congr 1
      obtain ⟨a, b, c⟩ := v
      simp only at e hlt hs
      congr 1
      · apply BitVec.eq_of_toNat_eq
        rw [hm]; omega
      · omega
  · rw [if_neg h]
    constructor
    · intro e; cases e
    · intro e; omega

theorem decDuration_parses :
    Parses decDuration (fun bs v => ∃ s n : Nat, s < 2 ^ 64 ∧ n < 2 ^ 32 ∧
      bs = leBytes 8 s ++ leBytes 4 n ∧ v.secs.toNat * nanosPerSec + v.nanos = s * nanosPerSec + n)
      (fun _ _ => False) := by
  have h1 : ∀ s n : Nat, Parses (match durationNew s n with
      | some d => pure d
      | none => Dec.panic .durationOverflow) (fun bs v => bs = [] ∧ durationNew s n = some v)
      (fun _ _ => False) := by
    intro s n
    cases durationNew s n with
    | none => exact (Parses.panic _).congr (fun bs v => by simp) (fun _ _ => Iff.rfl)
    | some d => exact (Parses.pure d).congr (fun bs v => by simp [eq_comm]) (fun _ _ => Iff.rfl)
  refine ((decNum_parses 8).bind (fun s => (decNum_parses 4).bind (fun n => h1 s n))).congr ?_ ?_
  · intro bs v
    constructor
    · rintro ⟨s, b1, _, rfl, ⟨hs, rfl⟩, n, b2, b3, rfl, ⟨hn, rfl⟩, rfl, h⟩
      exact ⟨s, n, hs, hn, by rw [List.append_nil], (durationNew_eq s n v).mp h⟩
    · rintro ⟨s, n, hs, hn, rfl, h⟩
      exact ⟨s, _, _, rfl, ⟨hs, rfl⟩, n, _, [], (List.append_nil _).symm, ⟨hn, rfl⟩, rfl,
        (durationNew_eq s n v).mpr h⟩
  · intro bs e
    simp

theorem decSystemTime_parses (p : TimePlatform) :
    Parses (decSystemTime p)
      (fun bs v => ∃ x : Int, (-(2 : Int) ^ 63 ≤ x ∧ x < (2 : Int) ^ 63) ∧
        bs = leBytesInt 8 x ∧ v.val = x * nanosPerSec)
      (fun bs e => ∃ x : Int, (-(2 : Int) ^ 63 ≤ x ∧ x < (2 : Int) ^ 63) ∧
        ¬ (p.lo ≤ x * nanosPerSec ∧ x * nanosPerSec ≤ p.hi) ∧ bs = leBytesInt 8 x ∧
        e = .systemTime x) := by
  have hneg : ∀ x : Int, ¬ x > 0 → 0 - (x.natAbs : Int) * nanosPerSec = x * nanosPerSec := by
    intro x hx
    have : (x.natAbs : Int) = -x := by omega
    rw [this, Int.neg_mul]; omega
  have h1 : ∀ time : Int, Parses (
      if hp : time > 0 then
        if h : time * nanosPerSec ≤ p.hi then
          (pure ⟨time * nanosPerSec, by
            have := p.lo_le; have : (0:Int) ≤ time * nanosPerSec := by
              apply Int.mul_nonneg <;> omega
            omega, h⟩ : Dec {ns : Int // p.lo ≤ ns ∧ ns ≤ p.hi})
        else Dec.fail (.systemTime time)
      else
        if h : p.lo ≤ 0 - (time.natAbs : Int) * nanosPerSec then
          pure ⟨0 - (time.natAbs : Int) * nanosPerSec, h, by
            have := p.le_hi
            have : (0:Int) ≤ (time.natAbs : Int) * nanosPerSec := by apply Int.mul_nonneg <;> omega
            omega⟩
        else Dec.fail (.systemTime time))
      (fun bs v => bs = [] ∧ v.val = time * nanosPerSec)
      (fun bs e => bs = [] ∧ ¬ (p.lo ≤ time * nanosPerSec ∧ time * nanosPerSec ≤ p.hi) ∧
        e = .systemTime time) := by
    intro x
    have hlo := p.lo_le
    have hhi := p.le_hi
    by_cases hp : x > 0
    · have hpos : (0 : Int) ≤ x * nanosPerSec := by apply Int.mul_nonneg <;> omega
      rw [dif_pos hp]
      by_cases h : x * nanosPerSec ≤ p.hi
      · rw [dif_pos h]
        refine (Parses.pure _).congr ?_ ?_
        · intro bs v; exact and_congr_right (fun _ => Subtype.ext_iff)
        · intro bs e
          refine ⟨False.elim, ?_⟩
          rintro ⟨_, hn, _⟩; exact hn ⟨by omega, h⟩
      · rw [dif_neg h]
        refine (Parses.fail _).congr ?_ ?_
        · intro bs v
          refine ⟨False.elim, ?_⟩
          rintro ⟨_, hv⟩; exact h (hv ▸ v.property.2)
        · intro bs e
          exact and_congr_right (fun _ => ⟨fun he => ⟨fun hc => h hc.2, he⟩, fun he => he.2⟩)
    · have hnp : x * nanosPerSec ≤ 0 := by
        rw [← hneg x hp]
        have : (0 : Int) ≤ (x.natAbs : Int) * nanosPerSec := by apply Int.mul_nonneg <;> omega
        omega
      rw [dif_neg hp]
      by_cases h : p.lo ≤ 0 - (x.natAbs : Int) * nanosPerSec
      · rw [dif_pos h]
        refine (Parses.pure _).congr ?_ ?_
        · intro bs v
          refine and_congr_right (fun _ => ?_)
          rw [Subtype.ext_iff]
          show v.val = 0 - (x.natAbs : Int) * nanosPerSec ↔ _
          rw [hneg x hp]
        · intro bs e
          refine ⟨False.elim, ?_⟩
          rintro ⟨_, hn, _⟩; rw [hneg x hp] at h; exact hn ⟨h, by omega⟩
      · rw [dif_neg h]
        rw [hneg x hp] at h
        refine (Parses.fail _).congr ?_ ?_
        · intro bs v
          refine ⟨False.elim, ?_⟩
          rintro ⟨_, hv⟩; exact h (hv ▸ v.property.1)
        · intro bs e
          exact and_congr_right (fun _ => ⟨fun he => ⟨fun hc => h hc.1, he⟩, fun he => he.2⟩)
  have hr : ∀ y < 256 ^ 8, -(2 : Int) ^ 63 ≤ ofBits true 8 y ∧ ofBits true 8 y < (2 : Int) ^ 63 :=
    fun y hy => ofBits_range true 8 y (by omega) hy
  have hb : ∀ x : Int, -(2 : Int) ^ 63 ≤ x ∧ x < (2 : Int) ^ 63 →
      ofBits true 8 (x % (2 : Int) ^ (8 * 8)).toNat = x :=
    fun x hx => ofBits_twos true 8 (by omega) x hx
  refine ((decNum_parses 8).bind (fun y => h1 (ofBits true 8 y))).congr ?_ ?_
  · intro bs v
    constructor
    · rintro ⟨y, b1, b2, rfl, ⟨hy, rfl⟩, rfl, hv⟩
      exact ⟨_, hr y hy, by rw [List.append_nil, leBytesInt_ofBits true 8 y hy], hv⟩
    · rintro ⟨x, hx, rfl, hv⟩
      refine ⟨_, _, [], (List.append_nil _).symm, ⟨emod_toNat_lt x 8, rfl⟩, rfl, ?_⟩
      rw [hb x hx]; exact hv
  · intro bs e
    constructor
    · rintro (h | ⟨y, b1, b2, rfl, ⟨hy, rfl⟩, rfl, hn, rfl⟩)
      · exact h.elim
      · exact ⟨_, hr y hy, hn, by rw [List.append_nil, leBytesInt_ofBits true 8 y hy], rfl⟩
    · rintro ⟨x, hx, hn, rfl, rfl⟩
      refine .inr ⟨_, _, [], (List.append_nil _).symm, ⟨emod_toNat_lt x 8, rfl⟩, rfl, ?_, ?_⟩
      · rw [hb x hx]; exact hn
      · rw [hb x hx]

theorem decIp_parses (n : Nat) :
    Parses (decNum n >>= fun x => pure (⟨toBe n x, by simp [toBe, toLe_length]⟩ : Items Byte n))
      (fun bs v => bs = v.val.reverse) (fun _ _ => False) := by
  refine ((decNum_parses n).map _).congr ?_ (fun _ _ => Iff.rfl)
  intro bs v
  constructor
  · rintro ⟨x, ⟨_, rfl⟩, rfl⟩
    show _ = (toBe n x).reverse
    rw [toBe, List.reverse_reverse, toLe_eq_leBytes]
  · rintro rfl
    have hl : v.val.reverse.length = n := by rw [List.length_reverse, v.property]
    refine ⟨fromLe v.val.reverse, ⟨?_, ?_⟩, ?_⟩
    · have := fromLe_lt v.val.reverse; rwa [hl] at this
    · have := toLe_fromLe v.val.reverse
      rw [hl] at this
      rw [← toLe_eq_leBytes, this]
    · apply Subtype.ext
      have := toLe_fromLe v.val.reverse
      rw [hl] at this
      show v.val = toBe n _
      rw [toBe, this, List.reverse_reverse]

theorem decIpv4_parses : Parses decIpv4 (fun bs v => bs = v.val.reverse) (fun _ _ => False) :=
  decIp_parses 4

theorem decIpv6_parses : Parses decIpv6 (fun bs v => bs = v.val.reverse) (fun _ _ => False) :=
  decIp_parses 16

theorem decBV_parses (n w : Nat) (hw : w = 8 * n) :
    Parses (decNum n >>= fun x => pure (BitVec.ofNat w x))
      (fun bs v => bs = leBytes n v.toNat) (fun _ _ => False) := by
  refine ((decNum_parses n).map _).congr ?_ (fun _ _ => Iff.rfl)
  intro bs v
  have hp : 2 ^ w = 256 ^ n := by rw [hw, two_pow_eq]
  constructor
  · rintro ⟨x, ⟨hx, rfl⟩, rfl⟩
    rw [BitVec.toNat_ofNat, Nat.mod_eq_of_lt (by omega)]
  · rintro rfl
    exact ⟨v.toNat, ⟨by have := v.isLt; omega, rfl⟩, by simp⟩

theorem decSocketAddrV4_parses :
    Parses decSocketAddrV4 (fun bs v => bs = v.ip.val.reverse ++ leBytes 2 v.port.toNat)
      (fun _ _ => False) := by
  have h : decSocketAddrV4 = (decIpv4 >>= fun ip =>
      (decNum 2 >>= fun x => pure (BitVec.ofNat 16 x)) >>= fun port =>
      pure (SocketAddrV4Val.mk ip port)) := by
    funext i
    show Dec.bind _ _ _ = Dec.bind _ _ _
    unfold Dec.bind
    cases decIpv4 i with
    | mk q i1 =>
      cases q with
      | ok a =>
        show Dec.bind _ _ _ = Dec.bind (Dec.bind _ _) _ _
        unfold Dec.bind
        cases decNum 2 i1 with
        | mk q i2 => cases q <;> rfl
      | err e => rfl
      | panic p => rfl
      | ub u => rfl
  rw [h]
  refine (two_parses decIpv4_parses (decBV_parses 2 16 rfl) SocketAddrV4Val.mk).congr ?_ ?_
  · intro bs v
    constructor
    · rintro ⟨a, b, ⟨_, _, rfl, rfl, rfl⟩, rfl⟩; rfl
    · rintro rfl; exact ⟨_, _, ⟨_, _, rfl, rfl, rfl⟩, rfl⟩
  · intro bs e; simp [PartRejected]

theorem decSocketAddrV6_parses :
    Parses decSocketAddrV6 (fun bs v => bs = v.ip.val.reverse ++ leBytes 2 v.port.toNat
      ++ leBytes 4 v.flowinfo.toNat ++ leBytes 4 v.scopeId.toNat) (fun _ _ => False) := by
  refine (decIpv6_parses.bind (fun ip => (decNum_parses 2).bind (fun port =>
    (decNum_parses 4).bind (fun fl => (decNum_parses 4).map (fun sc =>
      (⟨ip, BitVec.ofNat 16 port, BitVec.ofNat 32 fl, BitVec.ofNat 32 sc⟩ :
        SocketAddrV6Val)))))).congr ?_ ?_
  · intro bs v
    have hb : ∀ (w x n : Nat), 2 ^ w = 256 ^ n → x < 256 ^ n → (BitVec.ofNat w x).toNat = x := by
      intro w x n hw hx
      rw [BitVec.toNat_ofNat, Nat.mod_eq_of_lt (by omega)]
    constructor
    · rintro ⟨a, _, _, rfl, rfl, p, _, _, rfl, ⟨hp, rfl⟩, f, _, _, rfl, ⟨hf, rfl⟩, s, ⟨hs, rfl⟩, rfl⟩
      show _ = _ ++ leBytes 2 (BitVec.ofNat 16 p).toNat ++ leBytes 4 (BitVec.ofNat 32 f).toNat
        ++ leBytes 4 (BitVec.ofNat 32 s).toNat
      rw [hb 16 p 2 rfl hp, hb 32 f 4 rfl hf, hb 32 s 4 rfl hs]
      simp
    · rintro rfl
      refine ⟨v.ip, _, _, by rw [List.append_assoc, List.append_assoc], rfl, v.port.toNat, _, _,
        rfl, ⟨v.port.isLt, rfl⟩, v.flowinfo.toNat, _, _, rfl, ⟨v.flowinfo.isLt, rfl⟩,
        v.scopeId.toNat, ⟨v.scopeId.isLt, rfl⟩, ?_⟩
      simp
  · intro bs e; simp

section
variable {A : List Byte → α → Prop} {dec : Dec α}
variable {B : List Byte → β → Prop} {dec' : Dec β}

/-- A family octet 4 or 6 followed by an address. -/
theorem family_parses (h : Parses dec A (fun _ _ => False)) (h' : Parses dec' B (fun _ _ => False))
    (f : α → γ) (g : β → γ) :
    Parses (decU8 >>= fun d => if d = 4 then dec >>= fun a => pure (f a)
      else if d = 6 then dec' >>= fun a => pure (g a) else Dec.fail (.unassigned d))
      (fun bs v => (∃ a r, bs = 4 :: r ∧ A r a ∧ v = f a) ∨ ∃ a r, bs = 6 :: r ∧ B r a ∧ v = g a)
      (fun bs e => ∃ b : UInt8, b ≠ 4 ∧ b ≠ 6 ∧ bs = [b] ∧ e = .unassigned b.toNat) := by
  have h1 : ∀ d : Nat, Parses (if d = 4 then dec >>= fun a => pure (f a)
      else if d = 6 then dec' >>= fun a => pure (g a) else Dec.fail (.unassigned d))
      (fun bs v => d = 4 ∧ (∃ a, A bs a ∧ v = f a) ∨ d = 6 ∧ ∃ a, B bs a ∧ v = g a)
      (fun bs e => d ≠ 4 ∧ d ≠ 6 ∧ bs = [] ∧ e = .unassigned d) := by
    intro d
    by_cases h4 : d = 4
    · subst h4
      exact (h.map f).congr (fun bs v => by simp) (fun bs e => by simp)
    · rw [if_neg h4]
      by_cases h6 : d = 6
      · subst h6
        exact (h'.map g).congr (fun bs v => by simp) (fun bs e => by simp)
      · rw [if_neg h6]
        exact (Parses.fail _).congr (fun bs v => by simp [h4, h6]) (fun bs e => by simp [h4, h6])
  refine (decU8_parses.bind h1).congr ?_ ?_
  · intro bs v
    constructor
    · rintro ⟨_, b1, b2, rfl, ⟨b, rfl, rfl⟩, ⟨hb, a, hA, rfl⟩ | ⟨hb, a, hA, rfl⟩⟩
      · exact .inl ⟨a, b2, by rw [byte_eq_of_toNat b 4 (by omega) hb]; rfl, hA, rfl⟩
      · exact .inr ⟨a, b2, by rw [byte_eq_of_toNat b 6 (by omega) hb]; rfl, hA, rfl⟩
    · rintro (⟨a, r, rfl, hA, rfl⟩ | ⟨a, r, rfl, hA, rfl⟩)
      · exact ⟨4, [4], r, rfl, ⟨4, rfl, rfl⟩, .inl ⟨rfl, a, hA, rfl⟩⟩
      · exact ⟨6, [6], r, rfl, ⟨6, rfl, rfl⟩, .inr ⟨rfl, a, hA, rfl⟩⟩
  · intro bs e
    have hne : ∀ (b : UInt8) (n : Nat), n < 256 → (b.toNat ≠ n ↔ b ≠ UInt8.ofNat n) := by
      intro b n hn
      constructor
      · rintro h rfl; exact h (Utf8.toNat_ofNat_lt n hn)
      · intro h e; exact h (byte_eq_of_toNat b n hn e)
    constructor
    · rintro (h | ⟨_, b1, b2, rfl, ⟨b, rfl, rfl⟩, h4, h6, rfl, rfl⟩)
      · exact h.elim
      · exact ⟨b, (hne b 4 (by omega)).mp h4, (hne b 6 (by omega)).mp h6, rfl, rfl⟩
    · rintro ⟨b, h4, h6, rfl, rfl⟩
      exact .inr ⟨b.toNat, [b], [], rfl, ⟨b, rfl, rfl⟩, (hne b 4 (by omega)).mpr h4,
        (hne b 6 (by omega)).mpr h6, rfl, rfl⟩

end

theorem decIpAddr_parses :
    Parses decIpAddr (fun bs v => match v with
        | .v4 a => bs = 4 :: a.val.reverse
        | .v6 a => bs = 6 :: a.val.reverse)
      (fun bs e => ∃ b : UInt8, b ≠ 4 ∧ b ≠ 6 ∧ bs = [b] ∧ e = .unassigned b.toNat) := by
  refine (family_parses decIpv4_parses decIpv6_parses IpAddrVal.v4 IpAddrVal.v6).congr ?_
    (fun _ _ => Iff.rfl)
  intro bs v
  cases v with
  | v4 a => exact ⟨by rintro (⟨a, r, rfl, rfl, h⟩ | ⟨a, r, rfl, rfl, h⟩) <;> cases h; rfl,
      fun h => .inl ⟨a, _, h, rfl, rfl⟩⟩
  | v6 a => exact ⟨by rintro (⟨a, r, rfl, rfl, h⟩ | ⟨a, r, rfl, rfl, h⟩) <;> cases h; rfl,
      fun h => .inr ⟨a, _, h, rfl, rfl⟩⟩

theorem decSocketAddr_parses :
    Parses decSocketAddr (fun bs v => match v with
        | .v4 a => bs = 4 :: (a.ip.val.reverse ++ leBytes 2 a.port.toNat)
        | .v6 a => bs = 6 :: (a.ip.val.reverse ++ leBytes 2 a.port.toNat
            ++ leBytes 4 a.flowinfo.toNat ++ leBytes 4 a.scopeId.toNat))
      (fun bs e => ∃ b : UInt8, b ≠ 4 ∧ b ≠ 6 ∧ bs = [b] ∧ e = .unassigned b.toNat) := by
  refine (family_parses decSocketAddrV4_parses decSocketAddrV6_parses SocketAddrVal.v4
    SocketAddrVal.v6).congr ?_ (fun _ _ => Iff.rfl)
  intro bs v
  cases v with
  | v4 a => exact ⟨by rintro (⟨a, r, rfl, rfl, h⟩ | ⟨a, r, rfl, rfl, h⟩) <;> cases h; rfl,
      fun h => .inl ⟨a, _, h, rfl, rfl⟩⟩
  | v6 a => exact ⟨by rintro (⟨a, r, rfl, rfl, h⟩ | ⟨a, r, rfl, rfl, h⟩) <;> cases h; rfl,
      fun h => .inr ⟨a, _, h, rfl, rfl⟩⟩

/-! Text. -/

theorem check_iff (d : List Byte) (j : Nat) : Utf8.check d = some j ↔ TextEnds d j := by
  constructor
  · exact Utf8.check_some d j
  · rintro ⟨h1, h2, h3⟩
    cases hc : Utf8.check d with
    | none =>
      have := h3 d.length (Nat.le_refl _) (by
        rw [List.take_length]; exact (Utf8.check_none_iff d).mp hc)
      omega
    | some k =>
      obtain ⟨h4, h5, h6⟩ := Utf8.check_some d k hc
      have := h3 k (by omega) h5
      have := h6 j (by omega) h2
      congr 1; omega

theorem strOf_parses (d : List Byte) :
    Parses (strOf d) (fun bs v => bs = [] ∧ v.val = d)
      (fun bs e => bs = [] ∧ ∃ j c, TextEnds d j ∧ d[j]? = some c ∧ e = .badItem (.utf8 c j)) := by
  cases hc : Utf8.check d with
  | none =>
    have hv : Utf8.valid d = true := by simp [Utf8.valid, hc]
    rw [strOf_valid d hv]
    refine (Parses.pure _).congr ?_ ?_
    · intro bs v; exact and_congr_right (fun _ => Subtype.ext_iff)
    · intro bs e
      refine ⟨False.elim, ?_⟩
      rintro ⟨_, j, c, h, _⟩
      rw [← check_iff, hc] at h; cases h
  | some j =>
    obtain ⟨c, hj, hf⟩ := strOf_invalid d j hc
    rw [hf]
    refine (Parses.fail _).congr ?_ ?_
    · rintro bs ⟨v, hv⟩
      refine ⟨False.elim, ?_⟩
      rintro ⟨_, rfl⟩
      unfold Utf8.valid at hv
      have hc' : Utf8.check v = some j := hc
      rw [hc'] at hv; cases hv
    · intro bs e
      refine and_congr_right (fun _ => ?_)
      constructor
      · rintro rfl; exact ⟨j, c, (check_iff d j).mp hc, hj, rfl⟩
      · rintro ⟨j', c', h, hj', rfl⟩
        rw [← check_iff, hc] at h
        cases h
        rw [hj] at hj'
        cases hj'; rfl

/-- A length, that many octets, and a conversion of these. -/
theorem prefixed_parses {f : List Byte → Dec α} {B : List Byte → α → Prop}
    {S : List Byte → DecErr → Prop}
    (h : ∀ d, Parses (f d) (fun bs v => bs = [] ∧ B d v) (fun bs e => bs = [] ∧ S d e)) :
    Parses (decUsize >>= fun len => Dec.read len >>= f)
      (fun bs v => ∃ d, d.length ≤ 65535 ∧ bs = leBytes 2 d.length ++ d ∧ B d v)
      (fun bs e => ∃ d, d.length ≤ 65535 ∧ bs = leBytes 2 d.length ++ d ∧ S d e) := by
  refine (decUsize_parses.bind (fun len => (Parses.read len).bind h)).congr ?_ ?_
  · intro bs v
    constructor
    · rintro ⟨n, b1, _, rfl, ⟨hn, rfl⟩, d, _, b3, rfl, ⟨rfl, rfl⟩, rfl, hB⟩
      exact ⟨_, hn, by rw [List.append_nil], hB⟩
    · rintro ⟨d, hn, rfl, hB⟩
      exact ⟨d.length, _, d, rfl, ⟨hn, rfl⟩, d, d, [], (List.append_nil _).symm, ⟨rfl, rfl⟩, rfl, hB⟩
  · intro bs e
    constructor
    · rintro (h | ⟨n, b1, _, rfl, ⟨hn, rfl⟩, h | ⟨d, _, b3, rfl, ⟨rfl, rfl⟩, rfl, hB⟩⟩)
      · exact h.elim
      · exact h.elim
      · exact ⟨_, hn, by rw [List.append_nil], hB⟩
    · rintro ⟨d, hn, rfl, hB⟩
      exact .inr ⟨d.length, _, d, rfl, ⟨hn, rfl⟩, .inr ⟨d, d, [], (List.append_nil _).symm,
        ⟨rfl, rfl⟩, rfl, hB⟩⟩

theorem decString_parses :
    Parses decString (fun bs v => v.val.length ≤ 65535 ∧ bs = leBytes 2 v.val.length ++ v.val)
      (fun bs e => ∃ d j c, d.length ≤ 65535 ∧ bs = leBytes 2 d.length ++ d ∧ TextEnds d j ∧
        d[j]? = some c ∧ e = .badItem (.utf8 c j)) := by
  rw [decString_eq]
  refine (prefixed_parses strOf_parses).congr ?_ ?_
  · intro bs v
    constructor
    · rintro ⟨d, h1, h2, h3⟩; rw [h3]; exact ⟨h1, h2⟩
    · rintro ⟨h1, h2⟩; exact ⟨_, h1, h2, rfl⟩
  · intro bs e
    constructor
    · rintro ⟨d, h1, h2, j, c, h3⟩; exact ⟨d, j, c, h1, h2, h3⟩
    · rintro ⟨d, j, c, h1, h2, h3⟩; exact ⟨d, h1, h2, j, c, h3⟩

theorem decCString_parses :
    Parses decCString (fun bs v => v.val.length ≤ 65535 ∧ bs = leBytes 2 v.val.length ++ v.val)
      (fun bs e => ∃ d j, d.length ≤ 65535 ∧ bs = leBytes 2 d.length ++ d ∧
        d[j]? = some 0 ∧ 0 ∉ d.take j ∧ e = .cString j) := by
  have h1 : ∀ d : List Byte, Parses (if h : 0 ∉ d then (pure ⟨d, h⟩ : Dec {bs : List Byte // 0 ∉ bs})
      else Dec.fail (.cString (d.findIdx (· == 0)))) (fun bs v => bs = [] ∧ v.val = d)
      (fun bs e => bs = [] ∧ ∃ j, d[j]? = some 0 ∧ 0 ∉ d.take j ∧ e = .cString j) := by
    intro d
    by_cases h : 0 ∉ d
    · rw [dif_pos h]
      refine (Parses.pure _).congr ?_ ?_
      · intro bs v; exact and_congr_right (fun _ => Subtype.ext_iff)
      · intro bs e
        refine ⟨False.elim, ?_⟩
        rintro ⟨_, j, hj, _⟩
        exact h (List.mem_of_getElem? hj)
    · rw [dif_neg h]
      have hm : 0 ∈ d := Classical.not_not.mp h
      have hex : ∃ x ∈ d, (x == 0) = true := ⟨0, hm, rfl⟩
      have hlt : d.findIdx (· == 0) < d.length := List.findIdx_lt_length.mpr hex
      have hz : d[d.findIdx (· == 0)]? = some 0 := by
        rw [List.getElem?_eq_getElem hlt]
        have := List.findIdx_getElem (w := hlt)
        congr 1; simpa using this
      have hbefore : 0 ∉ d.take (d.findIdx (· == 0)) := by
        intro hin
        obtain ⟨k, hk, he⟩ := List.mem_iff_getElem.mp hin
        rw [List.length_take] at hk
        rw [List.getElem_take] at he
        have := List.not_of_lt_findIdx (xs := d) (p := (· == 0)) (i := k) (by omega)
        rw [he] at this
        simp at this
      refine (Parses.fail _).congr ?_ ?_
      · intro bs v
        refine ⟨False.elim, ?_⟩
        rintro ⟨_, hv⟩; exact v.property (hv ▸ hm)
      · intro bs e
        refine and_congr_right (fun _ => ?_)
        constructor
        · rintro rfl; exact ⟨_, hz, hbefore, rfl⟩
        · rintro ⟨j, hj, hn, rfl⟩
          congr 1
          obtain ⟨hjl, hje⟩ := List.getElem?_eq_some_iff.mp hj
          have h1 : ¬ d.findIdx (· == 0) < j := by
            intro hlt'
            obtain ⟨_, he⟩ := List.getElem?_eq_some_iff.mp hz
            exact hn (List.mem_take_iff_getElem.mpr ⟨_, by omega, he⟩)
          have h2 : ¬ j < d.findIdx (· == 0) := by
            intro hlt'
            exact hbefore (List.mem_take_iff_getElem.mpr ⟨j, by omega, hje⟩)
          omega
  refine (prefixed_parses h1).congr ?_ ?_
  · intro bs v
    constructor
    · rintro ⟨d, h1, h2, h3⟩; rw [h3]; exact ⟨h1, h2⟩
    · rintro ⟨h1, h2⟩; exact ⟨_, h1, h2, rfl⟩
  · intro bs e
    constructor
    · rintro ⟨d, h1, h2, j, h3⟩; exact ⟨d, j, h1, h2, h3⟩
    · rintro ⟨d, j, h1, h2, h3⟩; exact ⟨d, h1, h2, j, h3⟩

theorem decSizedStr_parses (n : Nat) :
    Parses (decSizedStr n) (fun bs v => v.val.length ≤ 65535 ∧ bs = leBytes 2 v.val.length ++ v.val)
      (fun bs e => ∃ d, d.length ≤ 65535 ∧ bs = leBytes 2 d.length ++ d ∧
        (n < d.length ∧ e = .badLength (.length n d.length) ∨
          d.length ≤ n ∧ ∃ j c, TextEnds d j ∧ d[j]? = some c ∧ e = .badItem (.utf8 c j))) := by
  have h1 : ∀ d : List Byte, Parses (match sizedStrFromUtf8 n d with
      | some (.ok s) => (pure s : Dec {bs : List Byte // Utf8.valid bs = true ∧ bs.length ≤ n})
      | some (.error e) => Dec.fail e
      | none => Dec.panic .indexOutOfBounds) (fun bs v => bs = [] ∧ v.val = d)
      (fun bs e => bs = [] ∧ (n < d.length ∧ e = .badLength (.length n d.length) ∨
          d.length ≤ n ∧ ∃ j c, TextEnds d j ∧ d[j]? = some c ∧ e = .badItem (.utf8 c j))) := by
    intro d
    by_cases hn : d.length > n
    · have : sizedStrFromUtf8 n d = some (.error (.badLength (.length n d.length))) := by
        unfold sizedStrFromUtf8; rw [dif_pos hn]
      rw [this]
      refine (Parses.fail _).congr ?_ ?_
      · intro bs v
        refine ⟨False.elim, ?_⟩
        rintro ⟨_, hv⟩
        have := v.property.2
        rw [hv] at this; omega
      · intro bs e
        refine and_congr_right (fun _ => ?_)
        constructor
        · rintro rfl; exact .inl ⟨hn, rfl⟩
        · rintro (⟨_, rfl⟩ | ⟨h, _⟩)
          · rfl
          · omega
    · cases hc : Utf8.check d with
      | none =>
        have hv : Utf8.valid d = true := by simp [Utf8.valid, hc]
        have : sizedStrFromUtf8 n d = some (.ok ⟨d, hv, by omega⟩) :=
          sizedStrFromUtf8_ok n ⟨d, hv, by omega⟩
        rw [this]
        refine (Parses.pure _).congr ?_ ?_
        · intro bs v; exact and_congr_right (fun _ => Subtype.ext_iff)
        · intro bs e
          refine ⟨False.elim, ?_⟩
          rintro ⟨_, ⟨h, _⟩ | ⟨_, j, c, h, _⟩⟩
          · omega
          · rw [← check_iff, hc] at h; cases h
      | some j =>
        have hlt := Utf8.check_lt d j hc
        have hj : d[j]? = some d[j] := List.getElem?_eq_getElem hlt
        have : sizedStrFromUtf8 n d = some (.error (.badItem (.utf8 d[j] j))) := by
          unfold sizedStrFromUtf8
          rw [dif_neg hn]
          split
          · rename_i h'; rw [hc] at h'; cases h'
          · rename_i j' h'
            rw [hc] at h'
            cases h'
            rw [hj]
        rw [this]
        refine (Parses.fail _).congr ?_ ?_
        · rintro bs ⟨v, hv, hv'⟩
          refine ⟨False.elim, ?_⟩
          rintro ⟨_, h⟩
          have h' : v = d := h
          subst h'
          unfold Utf8.valid at hv
          rw [hc] at hv; cases hv
        · intro bs e
          refine and_congr_right (fun _ => ?_)
          constructor
          · rintro rfl; exact .inr ⟨by omega, j, _, (check_iff d j).mp hc, hj, rfl⟩
          · rintro (⟨h, _⟩ | ⟨_, j', c', h, hj', rfl⟩)
            · omega
            · rw [← check_iff, hc] at h
              cases h
              rw [hj] at hj'
              cases hj'; rfl
  refine (prefixed_parses h1).congr ?_ (fun _ _ => Iff.rfl)
  intro bs v
  constructor
  · rintro ⟨d, h1, h2, h3⟩; rw [h3]; exact ⟨h1, h2⟩
  · rintro ⟨h1, h2⟩; exact ⟨_, h1, h2, rfl⟩

end Oct
