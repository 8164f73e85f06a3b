import Verif.Model.ErrorTypes
import Verif.Model.Slot
import Verif.Model.SizedStr
/-
`Debug` and `Display` of containers and slots, with the options of a formatter. What the standard
library prints for slices of octets is modelled after the documentation of `core::fmt`;
SIMPLIFICATION: text is what was written in total, and writers do not fail (for those see Model/Writers).
-/
namespace Oct

/-- The side on which text stands if there is more room (`<`, `^`, `>`). -/
inductive Align where
  | left | center | right
  deriving DecidableEq

/-- `{:x?}`, `{:X?}` or neither. -/
inductive DebugHex where
  | off | lower | upper
  deriving DecidableEq

/-- The options of a `Formatter`. -/
structure FmtOptions where
  /-- `#` -/
  alternate : Bool := false
  /-- `0` -/
  zeroPad : Bool := false
  /-- `+` -/
  plus : Bool := false
  hex : DebugHex := .off
  width : Option Nat := none
  precision : Option Nat := none
  fill : Char := ' '
  align : Option Align := none
  deriving DecidableEq

/-- The options of `{:?}` and `{}`, which `write!(f, "{:?}", ..)` sets whatever those of `f` are. -/
def FmtOptions.plain : FmtOptions := {}

/-- What an impl of `Debug` or `Display` writes. -/
abbrev Shows (α : Type) := FmtOptions → α → List Char

/-- `Formatter::padding`: the text with fill on the sides. -/
def padded (fill : Char) (align : Align) (room : Nat) (t : List Char) : List Char :=
  let before := match align with
    | .left => 0
    | .center => room / 2
    | .right => room
  List.replicate before fill ++ t ++ List.replicate (room - before) fill

/-- `Formatter::pad_integral` for a number that is not negative. -/
def padIntegral (o : FmtOptions) (hexPrefix digits : List Char) : List Char :=
  let pre := (if o.plus then ['+'] else []) ++ (if o.alternate then hexPrefix else [])
  let room := o.width.getD 0 - (pre.length + digits.length)
  if o.zeroPad then pre ++ List.replicate room '0' ++ digits
  else padded o.fill (o.align.getD .right) room (pre ++ digits)

/-- `Debug` of `u8`. -/
def debugU8 : Shows Byte := fun o b =>
  match o.hex with
  | .off => padIntegral o [] (showNat b.toNat)
  | .lower => padIntegral o ['0', 'x'] ((numeral 16 b.toNat).map Char.toLower)
  | .upper => padIntegral o ['0', 'x'] (numeral 16 b.toNat)

/-- `PadAdapter`: four spaces in front of each line; `fresh` tells whether a line begins here. -/
def indented : (fresh : Bool) → List Char → List Char
  | _, [] => []
  | fresh, c :: cs =>
    (if fresh then [' ', ' ', ' ', ' '] else []) ++ c :: indented (c == '\n') cs

/-- The entries of a `DebugList` after the first: separated by commas, or on lines of their own. -/
def debugEntries {α : Type} (item : Shows α) (o : FmtOptions) : List α → List Char
  | [] => []
  | a :: l => (if o.alternate then indented true (item o a ++ [',', '\n'])
      else [',', ' '] ++ item o a) ++ debugEntries item o l

/-- `Debug` of `[T]`: `f.debug_list().entries(self.iter()).finish()`. -/
def debugSlice {α : Type} (item : Shows α) : Shows (List α) := fun o l =>
  match l with
  | [] => ['[', ']']
  | a :: l =>
    if o.alternate then ['[', '\n'] ++ debugEntries item o (a :: l) ++ [']']
    else ['['] ++ item o a ++ debugEntries item o l ++ [']']

/-- What is done with the result of a call that cannot fail. -/
def Res.andShow {α : Type} (r : Res Empty α) (f : α → List Char) : Res Empty (List Char) :=
  match r with
  | .ok a => .ok (f a)
  | .err e => nomatch e
  | .panic p => .panic p
  | .ub u => .ub u

/-- `Debug for SizedSlice`: oct/src/sized_slice/mod.rs:234-239; `slice` is `Debug` of `[T]`. -/
def SizedSlice.debug {α : Type} (slice : Shows (List α)) (o : FmtOptions) (s : SizedSlice α) :
    Res Empty (List Char) :=
  s.asSlice.andShow (slice o)

/-- `Debug for SizedStr` (oct/src/sized_str/mod.rs:138-143) and `Display` (145-150); `str` is the impl
of `str`, on the octets. -/
def SizedStr.shown (str : Shows (List Byte)) (o : FmtOptions) (s : SizedStr) : Res Empty (List Char) :=
  s.inner.asSlice.andShow (str o)

/-- `Debug for Slot`: oct/src/slot/mod.rs:356-359, `write!(f, "{:?}", self.as_slice())`. The options
of `f` are replaced by those of the placeholder. -/
def Slot.debug (slice : Shows (List Byte)) (_ : FmtOptions) (s : Slot) : Res Empty (List Char) :=
  s.asSlice.andShow (slice .plain)

end Oct
