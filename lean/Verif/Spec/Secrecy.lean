import Verif.Model.Secrecy
import Verif.Spec.Format
/-
What is public of a slot.
-/
namespace Oct.Spec

/-- What is known of a slot besides its capacity: whether its length is, and which of its octets are. -/
structure Knows where
  len : Bool
  octet : Nat → Prop

/-- Nothing. -/
def Knows.nothing : Knows := ⟨false, fun _ => False⟩

/-- The slots do not differ in what is known. -/
def Alike (k : Knows) (s s' : Slot) : Prop :=
  s.buf.length = s'.buf.length ∧ (k.len = true → s.len = s'.len) ∧ ∀ i, k.octet i → s.buf[i]? = s'.buf[i]?

/-- The first `n` octets have become known. -/
def Knows.front (k : Knows) (n : Nat) : Nat → Prop := fun i => i < n ∨ k.octet i

/-- What is known after a successful operation that puts so many octets and sets the length. -/
def Knows.filled (k : Knows) (n : Nat) : Knows := ⟨true, k.front n⟩

/-- The program looks at the slot only where its contents are known: at `as_slice`, the length and all octets up to it
must be; at `read`, so many of the first octets that decoding these alone does not run out of input. -/
def Discreet {ρ : Type} : Knows → Use ρ → Slot → Prop
  | _, .done _, _ => True
  | k, .write t v next, s =>
    Discreet (match (s.write t v).1 with | .ok () => k.filled (wire t v).length | _ => k) (next (s.write t v).1)
      (s.write t v).2
  | k, .copyFromSlice d next, s =>
    Discreet (match (s.copyFromSlice d).1 with | .ok () => k.filled d.length | _ => k) (next (s.copyFromSlice d).1)
      (s.copyFromSlice d).2
  | k, .setLen n next, s =>
    Discreet (match (s.setLen n).1 with | .ok () => ⟨true, k.octet⟩ | _ => k) (next (s.setLen n).1) (s.setLen n).2
  | k, .setByte i b next, s =>
    Discreet ⟨k.len, fun j => j = i ∨ k.octet j⟩ (next (s.setByte i b).1) (s.setByte i b).2
  | k, .recv d next, s => Discreet ⟨k.len, k.front d.length⟩ (next (s.recv d).1) (s.recv d).2
  | k, .asSlice next, s => k.len = true ∧ (∀ i < s.len, k.octet i) ∧ Discreet k (next s.asSlice) s
  | k, .capacity next, s => Discreet k (next s.capacity) s
  | k, .read t next, s =>
    (∃ m, (∀ i < m, k.octet i) ∧ (t.decode (Input.new (s.buf.take m))).1 ≠ .panic .shortInput) ∧
      Discreet k (next (s.read t)) s

end Oct.Spec
