import Verif.Model.BuildMemory
import Verif.Spec.Memory
/-
What it means for vectors, sized slices and texts to be built in memory correctly.
-/
namespace Oct.Spec
open Oct

/-- A decoding of text has the results of the list model (`octets`), reads within the buffer of the
stream, copies to a buffer of its own, touches no other allocation, and leaves memory as it was if it
does not succeed. -/
def BuildsText (raw : Nat → RawInput → Mem Byte → Res DecErr RawVec × RawInput × Mem Byte)
    (octets : Input → Res DecErr (List Byte) × Input) : Prop :=
  ∀ a i m I, m a = none → ShowsInput m i I → ∃ m',
    raw a i m = ((octets I).1.map (fun d => ⟨⟨a, 0⟩, d.length, d.length⟩),
      ⟨i.buf, (octets I).2.pos⟩, m') ∧
    ShowsInput m' ⟨i.buf, (octets I).2.pos⟩ (octets I).2 ∧
    (∀ b, b ≠ a → m' b = m b) ∧
    (∀ d, (octets I).1 = .ok d → m' a = if d = [] then none else some (d.map some)) ∧
    ((∀ d, (octets I).1 ≠ .ok d) → m' = m)

/-- The results are the same, and a sized slice has `n` cells, all of them initialised, the first of
which are its items. -/
def SizedAgrees {α : Type} (n : Nat) :
    Res DecErr (SizedSlice α) → Res DecErr {l : List α // l.length ≤ n} → Prop
  | .ok s, .ok l => s.buf.length = n ∧ s.len = l.val.length ∧
      ∃ all : List α, s.buf = all.map some ∧ l.val = all.take s.len
  | .err e, .err e' => e = e'
  | .panic x, .panic x' => x = x'
  | .ub u, .ub u' => u = u'
  | _, _ => False

end Oct.Spec
