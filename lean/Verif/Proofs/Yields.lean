import Verif.Proofs.RoundTrip
import Verif.Proofs.DecInv
import Verif.Spec.Yields
/- Composition of `Yields`. -/
namespace Oct
open Spec
variable {α β : Type}

namespace Spec.Yields

theorem ofDecodes {m : Dec α} {w : List Byte} {a : α} (h : Decodes m w a) : Yields m w (.ok a) := h

theorem toDecodes {m : Dec α} {w : List Byte} {a : α} (h : Yields m w (.ok a)) : Decodes m w a := h

theorem pure (a : α) : Yields (Pure.pure a) [] (.ok a) := fun _ _ => rfl

theorem fail (e : DecErr) : Yields (Dec.fail e : Dec α) [] (.err e) := fun _ _ => rfl

theorem panic (p : Panic) : Yields (Dec.panic p : Dec α) [] (.panic p) := fun _ _ => rfl

theorem ub (u : Ub) : Yields (Dec.ub u : Dec α) [] (.ub u) := fun _ _ => rfl

theorem bind {m : Dec α} {f : α → Dec β} {w w' : List Byte} {a : α} {r : Res DecErr β}
    (hm : Yields m w (.ok a)) (hf : Yields (f a) w' r) : Yields (m >>= f) (w ++ w') r := by
  intro pre rest
  show Dec.bind m f _ = _
  unfold Dec.bind
  have h1 := hm pre (w' ++ rest)
  rw [← List.append_assoc w] at h1
  rw [h1]
  simp only
  have h2 := hf (pre ++ w) rest
  rw [List.length_append, List.append_assoc pre, ← List.append_assoc w] at h2
  rw [h2, List.length_append, Nat.add_assoc]

/-- As `bind`, when the rest consumes nothing. -/
theorem map {m : Dec α} {f : α → Dec β} {w : List Byte} {a : α} {r : Res DecErr β}
    (hm : Yields m w (.ok a)) (hf : Yields (f a) [] r) : Yields (m >>= f) w r := by
  have := hm.bind hf
  rwa [List.append_nil] at this

theorem bind_err {m : Dec α} {f : α → Dec β} {w : List Byte} {e : DecErr}
    (hm : Yields m w (.err e)) : Yields (m >>= f) w (.err e) := by
  intro pre rest
  show Dec.bind m f _ = _
  unfold Dec.bind
  rw [hm pre rest]

theorem mapErr {m : Dec α} {w : List Byte} {r : Res DecErr α} (g : DecErr → DecErr)
    (hm : Yields m w r) : Yields (m.mapErr g) w (r.mapErr g) := by
  intro pre rest
  unfold Dec.mapErr
  rw [hm pre rest]

theorem read (w : List Byte) : Yields (Dec.read w.length) w (.ok w) := Decodes.read w

theorem unique {m : Dec α} {w : List Byte} {r r' : Res DecErr α} (h : Yields m w r)
    (h' : Yields m w r') : r = r' := by
  have h1 := h [] []
  rw [h' [] []] at h1
  exact (Prod.mk.inj h1).1.symm

end Spec.Yields

theorem decUsize_yields (x : Nat) (h : x ≤ 65535) : Yields decUsize (leBytes 2 x) (.ok x) :=
  decUsize_decodes x h

/-- Any `n` octets decode as the number they are the little-endian form of. -/
theorem decNum_yields (w : List Byte) : Yields (decNum w.length) w (.ok (fromLe w)) :=
  (Decodes.readInto w).map rfl

theorem strOf_yields_valid (d : List Byte) (h : Utf8.valid d = true) :
    Yields (strOf d) [] (.ok ⟨d, h⟩) := by rw [strOf_valid d h]; exact Yields.pure _

theorem strOf_yields_invalid (d : List Byte) (j : Nat) (h : Utf8.check d = some j)
    (hj : j < d.length) : Yields (strOf d) [] (.err (.badItem (.utf8 d[j] j))) := by
  obtain ⟨c, hc, hs⟩ := strOf_invalid d j h
  rw [List.getElem?_eq_getElem hj] at hc
  cases hc
  rw [hs]; exact Yields.fail _

end Oct
