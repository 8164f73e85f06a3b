import Verif.Proofs.Yields
import Verif.Proofs.EncodesTo
import Verif.Proofs.Ends
/- Decoding of single values, for all octets. -/
namespace Oct
open Spec
set_option linter.unusedVariables false
variable {α β : Type}

/-- Any `n` octets are the little-endian form of a number. -/
theorem leBytes_surj (w : List Byte) : ∃ x, x < 256 ^ w.length ∧ leBytes w.length x = w :=
  ⟨fromLe w, fromLe_lt w, by rw [← toLe_eq_leBytes, toLe_fromLe]⟩

theorem leBytes_inj {n x y : Nat} (hx : x < 256 ^ n) (hy : y < 256 ^ n)
    (h : leBytes n x = leBytes n y) : x = y := by
  have := congrArg fromLe h
  rw [← toLe_eq_leBytes, ← toLe_eq_leBytes, fromLe_toLe, fromLe_toLe, Nat.mod_eq_of_lt hx,
    Nat.mod_eq_of_lt hy] at this
  exact this

theorem leBytesInt_ofBits (s : Bool) (n x : Nat) (h : x < 256 ^ n) :
    leBytesInt n (ofBits s n x) = leBytes n x := by
  unfold leBytesInt
  congr 1
  have hx : (x : Int) % (2 : Int) ^ (8 * n) = x := by
    rw [two_pow_int]
    exact Int.emod_eq_of_lt (by omega) (by omega)
  unfold ofBits
  split
  · rw [Int.sub_emod_right, hx]; omega
  · rw [hx]; omega

theorem decU8_yields (b : Byte) : Yields decU8 [b] (.ok b.toNat) := by
  have := decNum_yields [b]
  simp only [fromLe, Nat.mul_zero, Nat.add_zero] at this
  exact this

/-- Any `bytes` octets are the encoding of a number of the type, and decode as it. -/
theorem decRepr_yields (r : Repr) (w : List Byte) (h : w.length = r.bytes) :
    ∃ x, r.InRange x ∧ ReprEncodable r x ∧ reprWire r x = w ∧ Yields (decRepr r) w (.ok x) := by
  have key : ∃ x, r.InRange x ∧ ReprEncodable r x ∧ reprWire r x = w := by
    have hlt := fromLe_lt w
    rw [h] at hlt
    have hw : leBytes r.bytes (fromLe w) = w := by rw [← toLe_eq_leBytes, ← h, toLe_fromLe]
    cases r with
    | int k =>
      refine ⟨ofBits k.signed k.bytes (fromLe w), ofBits_range _ _ _ k.bytes_pos hlt, trivial, ?_⟩
      exact (leBytesInt_ofBits _ _ _ hlt).trans hw
    | usize =>
      have hlt' : fromLe w < 256 ^ 2 := hlt
      refine ⟨ofBits false 2 (fromLe w), ?_, ?_, (leBytesInt_ofBits _ _ _ hlt).trans hw⟩
      · exact (ofBits_range false 2 _ (by omega) hlt).1
      · show ofBits false 2 (fromLe w) ≤ 65535
        have := (ofBits_range false 2 _ (by omega) hlt).2
        simp at this; omega
    | isize =>
      refine ⟨ofBits true 2 (fromLe w), trivial, ?_, (leBytesInt_ofBits _ _ _ hlt).trans hw⟩
      have := ofBits_range true 2 _ (by omega) hlt
      simp at this
      show _ ∧ _
      omega
  obtain ⟨x, h1, h2, rfl⟩ := key
  exact ⟨x, h1, h2, rfl, decRepr_decodes r x h1 h2⟩

theorem reprWire_inj {r : Repr} {x y : Int} (hx : r.InRange x) (ex : ReprEncodable r x)
    (hy : r.InRange y) (ey : ReprEncodable r y) (h : reprWire r x = reprWire r y) : x = y := by
  have h1 : Yields (decRepr r) (reprWire r x) (.ok x) := decRepr_decodes r x hx ex
  have h2 : Yields (decRepr r) (reprWire r y) (.ok y) := decRepr_decodes r y hy ey
  rw [h] at h1
  exact Res.ok.inj (h1.unique h2)

/-- Outcomes are passed on to what follows. -/
theorem Spec.Yields.bind_map {m : Dec α} {f : α → β} {w : List Byte} {r : Res DecErr α}
    (h : Yields m w r) : Yields (m >>= fun a => Pure.pure (f a)) w (r.map f) := by
  intro pre rest
  show Dec.bind m _ _ = _
  unfold Dec.bind
  rw [h pre rest]
  cases r <;> rfl

end Oct
