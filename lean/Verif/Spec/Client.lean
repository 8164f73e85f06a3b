import Verif.Model.Client
import Verif.Spec.Memory
/-
What the borrow checker lets a program do with streams, and how memory shows the state of the program.
-/
namespace Oct.Spec
open Oct

/-- The regions have no octet in common. -/
def RegionsApart (r s : Region) : Prop :=
  r.len = 0 ∨ s.len = 0 ∨ r.buf ≠ s.buf ∨ r.lo + r.len ≤ s.lo ∨ s.lo + s.len ≤ r.lo

/-- Nothing borrows from the region mutably, save perhaps one stream. -/
def NotMut (c : Client) (r : Region) (save : Option Nat := none) : Prop :=
  ∀ k h, some k ≠ save → c.outs k = some h → RegionsApart h.region r

/-- Nothing borrows from the region for reading. -/
def NotShared (c : Client) (r : Region) : Prop :=
  (∀ k h, c.ins k = some h → RegionsApart h.region r) ∧
  ∀ j s, c.refs j = some s → RegionsApart s r

/-- The region is one of its buffer. -/
def InBuffer (c : Client) (r : Region) : Prop := r.lo + r.len ≤ (c.bufs r.buf).length

/-- The borrows that there are: within their buffers, and what is borrowed mutably is not borrowed
twice. -/
structure Valid (c : Client) : Prop where
  outs : ∀ k h, c.outs k = some h →
    InBuffer c h.region ∧ h.pos ≤ h.region.len ∧ NotMut c h.region (some k) ∧ NotShared c h.region
  ins : ∀ k h, c.ins k = some h → InBuffer c h.region ∧ h.pos ≤ h.region.len
  refs : ∀ j r, c.refs j = some r → InBuffer c r

/-- What the borrow checker lets pass: `&mut` needs that there is no other borrow of the region, `&`
that there is no mutable one; a stream or slice must be there to be used; ranges and indices are
checked when the program runs. A borrow that is replaced is dropped first. -/
def Allowed (c : Client) : ClientOp → Prop
  | .openOut k r => c.outs k = none ∧ InBuffer c r ∧ NotMut c r ∧ NotShared c r
  | .openIn k r => c.ins k = none ∧ InBuffer c r ∧ NotMut c r
  | .borrow j r => c.refs j = none ∧ InBuffer c r ∧ NotMut c r
  | .sub j lo len j' => c.refs j' = none ∧ ∃ r, c.refs j = some r ∧ lo + len ≤ r.len
  | .write k j => (∃ h, c.outs k = some h) ∧ ∃ r, c.refs j = some r
  | .writeFrom k k' => k ≠ k' ∧ (∃ h, c.outs k = some h) ∧ ∃ h, c.outs k' = some h
  | .look k => ∃ h, c.outs k = some h
  | .read k _ j => c.refs j = none ∧ ∃ h, c.ins k = some h
  | .readInto k r => (∃ h, c.ins k = some h) ∧ InBuffer c r ∧ NotMut c r ∧ NotShared c r
  | .lookIn k => ∃ h, c.ins k = some h
  | .see j => ∃ r, c.refs j = some r
  | .set b i _ => InBuffer c ⟨b, i, 1⟩ ∧ NotMut c ⟨b, i, 1⟩ ∧ NotShared c ⟨b, i, 1⟩
  | .dropOut _ | .dropIn _ | .dropRef _ => True

/-- All along. -/
def AllAllowed (c : Client) : List ClientOp → Prop
  | [] => True
  | op :: ops => Allowed c op ∧ AllAllowed (c.step op).2 ops

/-- The program in memory is in this state: each buffer is an allocation of its own with these
octets, and streams and slices point to their regions. -/
structure ShowsClient (m : RawClient) (c : Client) : Prop where
  base : ∀ a b, m.base a = m.base b → a = b
  bufs : ∀ b, m.mem (m.base b) = some ((c.bufs b).map some)
  outs : ∀ k, m.outs k = (c.outs k).map fun h => ⟨m.slice h.region, h.pos⟩
  ins : ∀ k, m.ins k = (c.ins k).map fun h => ⟨m.slice h.region, h.pos⟩
  refs : ∀ j, m.refs j = (c.refs j).map m.slice

/-- A program before it does anything: its buffers, without streams. -/
def freshClient (bufs : Nat → List Byte) : Client := ⟨bufs, fun _ => none, fun _ => none, fun _ => none⟩

/-- The same in memory, with the buffers in this order. -/
def freshRaw (bufs : Nat → List Byte) : RawClient :=
  ⟨fun a => some ((bufs a).map some), id, fun _ => none, fun _ => none, fun _ => none⟩

end Oct.Spec
