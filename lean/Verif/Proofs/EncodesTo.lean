import Verif.Spec.EncodesTo
import Verif.Proofs.Outcome
/- Values are encoded as `wire` says. -/
namespace Oct
open Spec

theorem encodesTo {t : Ty} {v : t.Val} (h : Encodable t v) : EncodesTo t v (wire t v) := by
  intro o ho hroom
  have he := ((Ty.encode_encodes t v).emits h o ho).1 hroom
  have hobs := Output.put_obs ho hroom
  exact ⟨_, he, hobs.2.2.1, hobs.1, hobs.2.1, hobs.2.2.2⟩

/-- As `encodesTo`, with the octets given. -/
theorem encodesTo' {t : Ty} {v : t.Val} {bs : List Byte} (h : Encodable t v) (hw : wire t v = bs) :
    EncodesTo t v bs := hw ▸ encodesTo h

/-- `wire` is the only thing a value can be encoded as. -/
theorem encodesTo_iff {t : Ty} {v : t.Val} {bs : List Byte} :
    EncodesTo t v bs ↔ Encodable t v ∧ wire t v = bs := by
  constructor
  · intro h
    obtain ⟨o', h1, h2, -⟩ := h (Output.new (List.replicate bs.length 0)) (Nat.zero_le _)
      (by simp [Output.remaining, Output.new, Output.capacity, Output.position])
    obtain ⟨he, hroom, rfl⟩ := Ty.encode_ok t v (Nat.zero_le _) h1
    rw [(Output.put_obs (Nat.zero_le _) hroom).2.2.1] at h2
    exact ⟨he, List.append_cancel_left h2⟩
  · rintro ⟨h, rfl⟩
    exact encodesTo h

theorem encodesSame {t t' : Ty} {v : t.Val} {v' : t'.Val} (hw : wire t v = wire t' v')
    (he : Encodable t v ↔ Encodable t' v') : EncodesSame t v t' v' := by
  intro o o' ho
  constructor
  · intro h
    obtain ⟨h1, h2, rfl⟩ := Ty.encode_ok t v ho h
    rw [hw] at h2 ⊢
    exact ((Ty.encode_encodes t' v').emits (he.mp h1) o ho).1 h2
  · intro h
    obtain ⟨h1, h2, rfl⟩ := Ty.encode_ok t' v' ho h
    rw [← hw] at h2 ⊢
    exact ((Ty.encode_encodes t v).emits (he.mpr h1) o ho).1 h2

/-- What `EncodesSame` amounts to. -/
theorem Spec.EncodesSame.encodesTo_iff {t t' : Ty} {v : t.Val} {v' : t'.Val}
    (h : EncodesSame t v t' v') (bs : List Byte) : EncodesTo t v bs ↔ EncodesTo t' v' bs := by
  constructor
  · intro h1 o ho hr
    obtain ⟨o', h2, h3⟩ := h1 o ho hr
    exact ⟨o', (h o o' ho).mp h2, h3⟩
  · intro h1 o ho hr
    obtain ⟨o', h2, h3⟩ := h1 o ho hr
    exact ⟨o', (h o o' ho).mpr h2, h3⟩

theorem Spec.EncodesSame.symm {t t' : Ty} {v : t.Val} {v' : t'.Val} (h : EncodesSame t v t' v') :
    EncodesSame t' v' t v := fun o o' ho => (h o o' ho).symm

theorem Spec.EncodesSame.trans {t t' t'' : Ty} {v : t.Val} {v' : t'.Val} {v'' : t''.Val}
    (h : EncodesSame t v t' v') (h' : EncodesSame t' v' t'' v'') : EncodesSame t v t'' v'' :=
  fun o o' ho => (h o o' ho).trans (h' o o' ho)

/-- The octets of a signed number are those of its two's complement. -/
theorem leBytesInt_toInt {n : Nat} (x : BitVec (8 * n)) : leBytesInt n x.toInt = leBytes n x.toNat := by
  unfold leBytesInt
  have h : (BitVec.ofInt (8 * n) x.toInt).toNat = x.toNat := by rw [BitVec.ofInt_toInt]
  rw [BitVec.toNat_ofInt] at h
  exact congrArg _ (by simpa using h)

end Oct
