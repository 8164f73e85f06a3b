import Verif.Model.SizedEncode
/-
A program that reads, or replaces, one part of a value in the octets that the value was encoded as, without decoding the
rest: it finds the part by adding up `MAX_ENCODED_SIZE` (oct/src/encode/sized_encode/mod.rs:81) of what is before it,
and decodes from `Input::new(&buf[offset..])` (oct/src/decode/input/mod.rs:37-39) or encodes to
`Output::new(&mut buf[offset..])` (oct/src/encode/output/mod.rs:39-41). The crate has no such program; it is what its
users write for files of records.
-/
namespace Oct

mutual

/-- Where a part of type `u` is in values of type `t`. -/
inductive Place : Ty → Ty → Type
  | here {t} : Place t t
  | wrap {k t u} (p : Place t u) : Place (.wrap k t) u
  | array {t n u} (i : Nat) (p : Place t u) : Place (.array t n) u
  | seq {k t u} (i : Nat) (p : Place t u) : Place (.seq k t) u
  | sizedSlice {t n u} (i : Nat) (p : Place t u) : Place (.sizedSlice t n) u
  | some {t u} (p : Place t u) : Place (.option t) u
  | ok {t e u} (p : Place t u) : Place (.result t e) u
  | err {t e u} (p : Place e u) : Place (.result t e) u
  | included {t u} (p : Place t u) : Place (.bound t) u
  | excluded {t u} (p : Place t u) : Place (.bound t) u
  | start {t u} (p : Place t u) : Place (.range t) u
  | stop {t u} (p : Place t u) : Place (.range t) u
  | first {t u} (p : Place t u) : Place (.rangeInclusive t) u
  | last {t u} (p : Place t u) : Place (.rangeInclusive t) u
  | lock {k t u} (p : Place t u) : Place (.lock k t) u
  | refCell {t u} (p : Place t u) : Place (.refCell t) u
  | tuple {fs u} (p : PlaceIn fs u) : Place (.tuple fs) u
  | struct {fs u} (p : PlaceIn fs u) : Place (.struct fs) u
  | enum {r vs u} (p : PlaceOf vs u) : Place (.enum r vs) u

/-- Where it is in the fields. -/
inductive PlaceIn : Fields → Ty → Type
  | head {t fs u} (p : Place t u) : PlaceIn (.cons t fs) u
  | tail {t fs u} (p : PlaceIn fs u) : PlaceIn (.cons t fs) u

/-- Where it is in which variant. -/
inductive PlaceOf : Variants → Ty → Type
  | this {d fs vs u} (p : PlaceIn fs u) : PlaceOf (.cons d fs vs) u
  | later {d fs vs u} (p : PlaceOf vs u) : PlaceOf (.cons d fs vs) u

end

mutual

/-- How many octets are before it, as the program reckons: two for the length of a collection, one for a sign, and else
what `MAX_ENCODED_SIZE` says. -/
def Place.offset (sizeOf : Ty → Nat) : {t u : Ty} → Place t u → Nat
  | _, _, .here => 0
  | _, _, .wrap p => p.offset sizeOf
  | .array t _, _, .array i p => i * t.maxSize sizeOf + p.offset sizeOf
  | .seq _ t, _, .seq i p => 2 + i * t.maxSize sizeOf + p.offset sizeOf
  | .sizedSlice t _, _, .sizedSlice i p => 2 + i * t.maxSize sizeOf + p.offset sizeOf
  | _, _, .some p => 1 + p.offset sizeOf
  | _, _, .ok p => 1 + p.offset sizeOf
  | _, _, .err p => 1 + p.offset sizeOf
  | _, _, .included p => 1 + p.offset sizeOf
  | _, _, .excluded p => 1 + p.offset sizeOf
  | _, _, .start p => p.offset sizeOf
  | .range t, _, .stop p => t.maxSize sizeOf + p.offset sizeOf
  | _, _, .first p => p.offset sizeOf
  | .rangeInclusive t, _, .last p => t.maxSize sizeOf + p.offset sizeOf
  | _, _, .lock p => p.offset sizeOf
  | _, _, .refCell p => p.offset sizeOf
  | _, _, .tuple p => p.offset sizeOf
  | _, _, .struct p => p.offset sizeOf
  | .enum r _, _, .enum p => r.bytes + p.offset sizeOf

/-- See `Place.offset`. -/
def PlaceIn.offset (sizeOf : Ty → Nat) : {fs : Fields} → {u : Ty} → PlaceIn fs u → Nat
  | _, _, .head p => p.offset sizeOf
  | .cons t _, _, .tail p => t.maxSize sizeOf + p.offset sizeOf

/-- See `Place.offset`. -/
def PlaceOf.offset (sizeOf : Ty → Nat) : {vs : Variants} → {u : Ty} → PlaceOf vs u → Nat
  | _, _, .this p => p.offset sizeOf
  | _, _, .later p => p.offset sizeOf

end

/-- Reads the part of the value whose octets begin at `pos`: `&buf[offset..]` panics if it is out of bounds. -/
def Place.peek (sizeOf : Ty → Nat) {t u : Ty} (p : Place t u) (buf : List Byte) (pos : Nat) : Res DecErr u.Val :=
  if buf.length < pos + p.offset sizeOf then .panic .indexOutOfBounds
  else (u.decode (Input.new (buf.drop (pos + p.offset sizeOf)))).1

/-- Replaces it. -/
def Place.poke (sizeOf : Ty → Nat) {t u : Ty} (p : Place t u) (x : u.Val) (buf : List Byte) (pos : Nat) :
    Res EncErr Unit × List Byte :=
  if buf.length < pos + p.offset sizeOf then (.panic .indexOutOfBounds, buf)
  else
    let r := u.encode x (Output.new (buf.drop (pos + p.offset sizeOf)))
    (r.1, buf.take (pos + p.offset sizeOf) ++ r.2.buf)

end Oct
