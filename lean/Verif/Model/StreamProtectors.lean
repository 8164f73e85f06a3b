import Verif.Model.StreamBorrows
import Verif.Model.Protectors
/-
What streams by themselves do to the pointers to their octets, with the functions that they call and their arguments,
which are protected as in Model/Protectors.

SIMPLIFICATIONS: those of Model/StreamBorrows and Model/Protectors; `len`, `as_ptr` and `as_mut_ptr` of the slice that
octets are copied to or from, which is not the stream's, are not calls here.
-/
namespace Oct.Alias

namespace Place
variable (s : Place)

/-- `Input::capacity` and `Output::capacity`: oct/src/decode/input/mod.rs:103-108, oct/src/encode/output/mod.rs:93-97, with
the call of the slice's `len`. -/
def streamCapacityP (self : Nat) : Acts Unit :=
  calling .shared self s.head fun self => do
    lift (read self s.head)
    calling .shared ownerTag s.buf fun _ => Acts.pure ()

/-- `Input::position` and `Output::position`: oct/src/decode/input/mod.rs:119-124, oct/src/encode/output/mod.rs:109-113. -/
def streamPositionP (self : Nat) : Acts Unit :=
  calling .shared self s.head fun self => lift (read self s.head)

/-- `Input::remaining` and `Output::remaining`: oct/src/decode/input/mod.rs:110-117, oct/src/encode/output/mod.rs:100-106. -/
def streamRemainingP (self : Nat) : Acts Unit := do
  s.streamCapacityP self
  s.streamPositionP self

/-- `Input::read`: oct/src/decode/input/mod.rs:49-69, with the calls of the slice's `len` and `as_ptr`. -/
def streamReadP (pos n : Nat) (self : Nat) : Acts Nat :=
  calling .excl self s.head fun self => do
    lift (read self s.head)
    calling .shared ownerTag s.buf fun _ => Acts.pure ()
    if pos + n ≤ s.cap then
      let ptr ← calling .shared ownerTag s.buf fun ptr => Acts.pure ptr
      let data ← lift (retag .shared ptr ⟨s.at_ + pos, n⟩)
      lift (write self s.head)
      Acts.pure data
    else Acts.pure ownerTag

/-- `Input::read_into`: oct/src/decode/input/mod.rs:79-101. Both arguments are protected until it returns. -/
def streamReadIntoP (d pos n : Nat) (self : Nat) : Acts Unit :=
  calling .excl self s.head fun self => calling .excl dataTag ⟨d, n⟩ fun buf => do
    s.streamRemainingP self
    if pos + n ≤ s.cap then
      let src ← calling .shared ownerTag s.buf fun src => Acts.pure src
      let dst ← lift (retag .raw buf ⟨d, n⟩)
      lift (read src ⟨s.at_ + pos, n⟩)
      lift (write dst ⟨d, n⟩)
      lift (write self s.head)
    else Acts.pure ()

/-- `Output::write`: oct/src/encode/output/mod.rs:49-71. -/
def streamWriteP (d pos n : Nat) (self : Nat) : Acts Unit :=
  calling .excl self s.head fun self => calling .shared dataTag ⟨d, n⟩ fun data => do
    lift (read self s.head)
    calling .shared ownerTag s.buf fun _ => Acts.pure ()
    if pos + n ≤ s.cap then
      let dst ← calling .excl ownerTag s.buf fun dst => lift (retag .raw dst s.buf)
      lift (read data ⟨d, n⟩)
      lift (write dst ⟨s.at_ + pos, n⟩)
      lift (write self s.head)
    else Acts.pure ()

/-- `Output::as_ptr`: oct/src/encode/output/mod.rs:74-78. -/
def streamPtrP (self : Nat) : Acts Nat :=
  calling .shared self s.head fun self => do
    lift (read self s.head)
    calling .shared ownerTag s.buf fun buf => lift (retag .shared buf s.buf)

/-- `Output::as_slice`: oct/src/encode/output/mod.rs:81-90. -/
def streamSliceP (pos : Nat) (self : Nat) : Acts Nat :=
  calling .shared self s.head fun self => do
    let ptr ← s.streamPtrP self
    s.streamPositionP self
    lift (retag .shared ptr (s.items pos))

end Place

/-- What a call does. -/
def StreamCall.marks (s : Place) (d : Nat) (o : Owner) : StreamCall → List Mark
  | .read n => (s.streamReadP o.len n ownerTag o.next).2.2
  | .readInto n => (s.streamReadIntoP d o.len n ownerTag o.next).2.2
  | .write n => (s.streamWriteP d o.len n ownerTag o.next).2.2
  | .asPtr => (s.streamPtrP ownerTag o.next).2.2
  | .asSlice => (s.streamSliceP o.len ownerTag o.next).2.2
  | .capacity => (s.streamCapacityP ownerTag o.next).2.2
  | .position => (s.streamPositionP ownerTag o.next).2.2
  | .remaining => (s.streamRemainingP ownerTag o.next).2.2
  | .get h i => match o.held[h]? with
    | some x => [.event (.read x.tag ⟨x.r.lo + i, 1⟩)]
    | none => []

/-- What a program does. -/
def streamMarks (s : Place) (d : Nat) : Owner → List StreamCall → List Mark
  | _, [] => []
  | o, c :: cs => c.marks s d o ++ streamMarks s d (c.go s d o).1 cs

end Oct.Alias
