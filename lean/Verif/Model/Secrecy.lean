import Verif.Model.Party
/-
Programs that use a slot and decide what to do next by what they see: oct/src/slot/mod.rs.
-/
namespace Oct

/-- A program that uses a slot. -/
inductive Use (ρ : Type) where
  | done (r : ρ)
  /-- `slot.write(value)` -/
  | write (t : Ty) (v : t.Val) (next : Res EncErr Unit → Use ρ)
  /-- `slot.copy_from_slice(data)` -/
  | copyFromSlice (data : List Byte) (next : Res Empty Unit → Use ρ)
  /-- `slot.set_len(n)` -/
  | setLen (n : Nat) (next : Res Empty Unit → Use ρ)
  /-- `slot.as_mut_slice()[i] = b` -/
  | setByte (i : Nat) (b : Byte) (next : Res Empty Unit → Use ρ)
  /-- `socket.recv(&mut slot)` -/
  | recv (datagram : List Byte) (next : Nat → Use ρ)
  /-- `slot.as_slice()`, `&slot[..]`, `slot == ..`, `{:?}`, `socket.send(&slot)` -/
  | asSlice (next : Res Empty (List Byte) → Use ρ)
  /-- `slot.capacity()` -/
  | capacity (next : Nat → Use ρ)
  /-- `slot.read()` -/
  | read (t : Ty) (next : Res DecErr t.Val → Use ρ)

/-- What the program comes to, and the slot then. See Model/Slot for the operations (oct/src/slot/mod.rs). -/
def Use.run {ρ : Type} : Use ρ → Slot → ρ × Slot
  | .done r, s => (r, s)
  | .write t v next, s => (next (s.write t v).1).run (s.write t v).2
  | .copyFromSlice d next, s => (next (s.copyFromSlice d).1).run (s.copyFromSlice d).2
  | .setLen n next, s => (next (s.setLen n).1).run (s.setLen n).2
  | .setByte i b next, s => (next (s.setByte i b).1).run (s.setByte i b).2
  | .recv d next, s => (next (s.recv d).1).run (s.recv d).2
  | .asSlice next, s => (next s.asSlice).run s
  | .capacity next, s => (next s.capacity).run s
  | .read t next, s => (next (s.read t)).run s

end Oct
