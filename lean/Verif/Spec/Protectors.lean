import Verif.Spec.SlotBorrows
import Verif.Model.Protectors
/-
When the behaviour of a program is defined, given protectors.
-/
namespace Oct.Spec
open Alias

/-- What happens, other than that functions are left and that arguments are protected. -/
def plain : List Mark → List Event
  | [] => []
  | .event e :: ms => e :: plain ms
  | .enter k p q r :: ms => .retag k p q r :: plain ms
  | .leave _ _ :: ms => plain ms

/-- Nothing undefined happens at any location, in a program that owns what is at `s`, and has a reference to all
that is elsewhere. -/
def DefinedP {τ : Type} (R : Protecting τ) (s : Place) (ms : List Mark) : Prop :=
  ∀ l, ∃ x, runMarks R l ms (R.start (if s.whole.has l then ownerTag else dataTag), []) = some x

/-- All that is copied is copied to where there is room. -/
def Room (cap : Nat) (cs : List Call) : Prop := ∀ n, Call.copyFromSlice n ∈ cs → n ≤ cap

/-- Likewise for slots: else the methods panic. -/
def SlotRoom (cap : Nat) (cs : List SlotCall) : Prop :=
  ∀ n, (SlotCall.copyFromSlice n ∈ cs → n ≤ cap) ∧ (SlotCall.setLen n ∈ cs → n ≤ cap)

/-- What there is in a program: functions are entered, with a reference to a region, and left, or something is done. -/
inductive Beat where
  | into (k : Kind) (r : Region)
  | out
  | does

/-- This, if functions are left in the opposite order to that in which they were entered, and all are. -/
def beats : List (Nat × Region) → List Mark → Option (List Beat)
  | [], [] => some []
  | _ :: _, [] => none
  | st, .event _ :: ms => (beats st ms).map (.does :: ·)
  | st, .enter k _ q r :: ms => (beats ((q, r) :: st) ms).map (.into k r :: ·)
  | [], .leave _ _ :: _ => none
  | x :: st, .leave t r :: ms => if x.1 = t ∧ x.2.lo = r.lo ∧ x.2.size = r.size then (beats st ms).map (.out :: ·) else none

/-- What `as_ptr` of a sized slice consists of. -/
def ptrBeats (s : Place) (k : Kind) : List Beat := [.into k s.whole, .into k s.buf, .does, .out, .out]

/-- What `as_ptr` of a slot consists of. -/
def slotPtrBeats (s : Place) (k : Kind) : List Beat := [.into k s.head, .does, .into k s.buf, .does, .out, .out]

/-- What `len` of a slot consists of. -/
def slotLenBeats (s : Place) : List Beat := [.into .shared s.head, .does, .out]

/-- What `capacity` of a slot consists of. -/
def capacityBeats (s : Place) : List Beat := [.into .shared s.head, .does, .into .shared s.buf, .out, .out]

/-- What `set_len_unchecked` of a slot consists of. -/
def setBeats (s : Place) : List Beat := .into .excl s.head :: (capacityBeats s ++ [.does, .out])

/-- What the writing of pieces to a stream at `pos` consists of. -/
def writeBeats (s : Place) (d : Nat) : Nat → List Nat → List Beat
  | _, [] => []
  | pos, n :: ns =>
    if pos + n ≤ s.cap then
      [.into .shared ⟨d, n⟩, .into .shared s.buf, .out, .into .excl s.buf, .does, .out, .does, .does, .out]
        ++ writeBeats s d (pos + n) ns
    else [.into .shared ⟨d, n⟩, .into .shared s.buf, .out, .out] ++ writeBeats s d pos ns

/-- What the reading of pieces from a stream at `pos` consists of. -/
def readBeats (s : Place) : Nat → List Nat → List Beat
  | _, [] => []
  | pos, n :: ns =>
    if pos + n ≤ s.cap then
      [.into .shared s.buf, .out, .into .shared s.buf, .does, .out, .does] ++ readBeats s (pos + n) ns
    else [.into .shared s.buf, .out] ++ readBeats s pos ns

/-- What a method of a sized slice consists of, that has `len` items. -/
def callBeats (s : Place) (d len : Nat) : Call → List Beat
  | .len => [.into .shared s.whole, .does, .out]
  | .asSlice => .into .shared s.whole :: (ptrBeats s .shared ++ [.into .shared s.whole, .does, .out, .does, .out])
  | .asMutSlice => .into .excl s.whole :: (ptrBeats s .excl ++ [.into .shared s.whole, .does, .out, .does, .out])
  | .copyFromSlice n => [.into .excl s.whole, .into .shared ⟨d, n⟩, .into .excl s.buf, .does, .out, .does, .does,
      .into .excl s.whole, .does, .out, .out, .out]
  | .eachRef => .into .shared s.whole :: .does :: ((List.replicate len (ptrBeats s .shared)).flatten ++ [.out])
  | .eachMut => .into .excl s.whole :: .does :: ((List.replicate len (ptrBeats s .excl)).flatten ++ [.out])
  | .get _ _ => [.does]
  | .set _ _ => [.does]

/-- What a method of a slot consists of. -/
def slotCallBeats (s : Place) (d : Nat) : SlotCall → List Beat
  | .len => slotLenBeats s
  | .capacity => capacityBeats s
  | .asSlice => .into .shared s.head :: (slotPtrBeats s .shared ++ slotLenBeats s ++ [.does, .out])
  | .asMutSlice => .into .excl s.head :: (slotPtrBeats s .excl ++ capacityBeats s ++ [.does, .out])
  | .asPtr => slotPtrBeats s .shared
  | .asMutPtr => slotPtrBeats s .excl
  | .setLen _ => .into .excl s.head :: (capacityBeats s ++ setBeats s ++ [.out])
  | .copyFromSlice n => .into .excl s.head :: .into .shared ⟨d, n⟩ :: (capacityBeats s ++ slotPtrBeats s .excl
      ++ [.does, .does] ++ setBeats s ++ [.out, .out])
  | .write ns ok => .into .excl s.head :: .does :: .into .excl s.buf :: .out :: (writeBeats s d 0 ns
      ++ (if ok then .into .excl s.head :: (capacityBeats s ++ setBeats s ++ [.out]) else []) ++ [.out])
  | .read ns => .into .shared s.head :: .does :: .into .shared s.buf :: .out :: (readBeats s 0 ns ++ [.out])
  | .get _ _ => [.does]
  | .set _ _ => [.does]

end Oct.Spec
