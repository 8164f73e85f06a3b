import Verif.Spec.SlotBorrows
import Verif.Model.StreamBorrows
/-
What the borrow checker allows programs that have a stream, and what of it is read and written.
-/
namespace Oct.Spec
open Alias

/-- How far a stream of `cap` octets is after a call. -/
def streamPosAfter (cap pos : Nat) : StreamCall → Nat
  | .read n | .readInto n | .write n => if pos + n ≤ cap then pos + n else pos
  | _ => pos

/-- What was returned so far: how many octets there are, and whether they may still be looked at. What is read has the
lifetime of the buffer; other references that of `&self`, which `write` ends. (Pointers are asked to be used likewise.) -/
def streamLoansAfter (cap pos : Nat) (loans : List (Nat × Bool)) : StreamCall → List (Nat × Bool)
  | .read n => if pos + n ≤ cap then loans ++ [(n, true)] else loans
  | .write _ => loans.map fun x => (x.1, false)
  | .asPtr => loans ++ [(cap, true)]
  | .asSlice => loans ++ [(pos, true)]
  | _ => loans

def StreamPermits (loans : List (Nat × Bool)) : StreamCall → Prop
  | .get h i => ∃ n, loans[h]? = some (n, true) ∧ i < n
  | _ => True

/-- All calls compile, one after the other. -/
def StreamChecked (cap : Nat) : Nat → List (Nat × Bool) → List StreamCall → Prop
  | _, _, [] => True
  | pos, loans, c :: cs =>
    StreamPermits loans c ∧ StreamChecked cap (streamPosAfter cap pos c) (streamLoansAfter cap pos loans c) cs

/-- The call is one of input streams. -/
def OfInput : StreamCall → Prop
  | .write _ | .asPtr | .asSlice => False
  | _ => True

/-- The sizes of what reads return that succeed. -/
def readSizes (cap : Nat) : Nat → List StreamCall → List Nat
  | _, [] => []
  | pos, .read n :: cs => if pos + n ≤ cap then n :: readSizes cap (pos + n) cs else readSizes cap pos cs
  | pos, .readInto n :: cs => readSizes cap (if pos + n ≤ cap then pos + n else pos) cs
  | pos, _ :: cs => readSizes cap pos cs

/-- What a call reads other than `get`: the stream itself, and what is copied. -/
def StreamReads (s : Place) (d pos : Nat) (c : StreamCall) (l : Nat) : Prop :=
  s.head.has l = true ∨
  match c with
  | .readInto n => pos + n ≤ s.cap ∧ s.at_ + pos ≤ l ∧ l < s.at_ + pos + n
  | .write n => pos + n ≤ s.cap ∧ d ≤ l ∧ l < d + n
  | _ => False

/-- What a call writes: what is copied to, and the stream itself if something was read or written. -/
def StreamWrites (s : Place) (d pos : Nat) (c : StreamCall) (l : Nat) : Prop :=
  match c with
  | .read n => pos + n ≤ s.cap ∧ s.head.has l = true
  | .readInto n => pos + n ≤ s.cap ∧ (s.head.has l = true ∨ (d ≤ l ∧ l < d + n))
  | .write n => pos + n ≤ s.cap ∧ (s.head.has l = true ∨ (s.at_ + pos ≤ l ∧ l < s.at_ + pos + n))
  | _ => False

end Oct.Spec
