import Verif.Model.ErrorTypes
/-
What the error types mean: which values belong to them, what the root cause of an error is, and which
types occur within a type. Only the types and constructors of the model are used here, not the
modelled code.
-/
namespace Oct.Spec

/-- The values of an encode error type. `GenericEncodeError::BadBorrow` is left out: the crate
never constructs it. -/
def EncHas : EncTy → EncErr → Prop
  | .infallible, _ => False
  | .usize, e => ∃ n, e = .usize n
  | .isize, e => ∃ i, e = .isize i
  | .coll l i, e => (∃ e', e = .badLength e' ∧ EncHas l e') ∨ ∃ e', e = .badItem e' ∧ EncHas i e'
  | .item t, e => ∃ i e', e = .item i e' ∧ EncHas t e'
  | .pair t, e => ∃ i e', e = .pair i e' ∧ EncHas t e'
  | .enum d f, e =>
      (∃ n, d = .usize ∧ e = .badDiscriminant (.usize n)) ∨
      (∃ i, d = .isize ∧ e = .badDiscriminant (.isize i)) ∨
      ∃ e', e = .badField e' ∧ EncHas f e'
  | .refCell t, e => e = .badBorrow ∨ ∃ e', e = .badValue e' ∧ EncHas t e'
  | .generic, e => (∃ i, e = .gLargeIsize i) ∨ ∃ n, e = .gLargeUsize n

/-- The values of a decode error type. `UnassignedDiscriminant` with a `bool` is left out: the crate
never constructs it. -/
def DecHas : DecTy → DecErr → Prop
  | .infallible, _ => False
  | .char, e => ∃ c < 2 ^ 32, e = .char c
  | .cString, e => ∃ i, e = .cString i
  | .nonZero, e => e = .nonZero
  | .systemTime, e => ∃ t, -(2 : Int) ^ 63 ≤ t ∧ t < (2 : Int) ^ 63 ∧ e = .systemTime t
  | .length, e => ∃ c l, e = .length c l
  | .utf8, e => ∃ v i, e = .utf8 v i
  | .coll l i, e => (∃ e', e = .badLength e' ∧ DecHas l e') ∨ ∃ e', e = .badItem e' ∧ DecHas i e'
  | .item t, e => ∃ i e', e = .item i e' ∧ DecHas t e'
  | .enum d f, e => (∃ r v, d = some r ∧ r.InRange v ∧ e = .unassigned v) ∨
      ∃ e', e = .badField e' ∧ DecHas f e'
  | .generic, e => (∃ v i, e = .gBadString v i) ∨ (∃ i, e = .gNullString i) ∨ e = .gNullInteger ∨
      (∃ c l, e = .gSmallBuffer c l) ∨ (∃ v < 2 ^ 128, e = .gUnassigned v) ∨
      ∃ t, -(2 : Int) ^ 63 ≤ t ∧ t < (2 : Int) ^ 63 ∧ e = .gNarrowSystemTime t

/-- Going from an error to its `source` some number of times. -/
inductive Leads : Cause → Cause → Prop
  | refl (c) : Leads c c
  | step {a b c} : a.source = some b → Leads b c → Leads a c

/-- The last error of the chain of sources. -/
def Root (c r : Cause) : Prop := Leads c r ∧ r.source = none

/-- Errors with a reason of their own. -/
def OwnReason : Cause → Prop
  | .enc (.usize _) | .enc (.isize _) | .borrow => True
  | .dec (.char _) | .dec (.cString _) | .dec .nonZero | .dec (.systemTime _) | .dec (.length _ _)
  | .dec (.utf8 _ _) | .dec (.unassigned _) | .dec (.gUnassigned _) => True
  | _ => False

mutual

/-- Some type with the property occurs within the type. -/
def Within (P : Ty → Prop) : Ty → Prop
  | .wrap w t => P (.wrap w t) ∨ Within P t
  | .array t n => P (.array t n) ∨ Within P t
  | .seq k t => P (.seq k t) ∨ Within P t
  | .hashMap k v => P (.hashMap k v) ∨ Within P k ∨ Within P v
  | .hashSet k => P (.hashSet k) ∨ Within P k
  | .option t => P (.option t) ∨ Within P t
  | .result t u => P (.result t u) ∨ Within P t ∨ Within P u
  | .bound t => P (.bound t) ∨ Within P t
  | .range t => P (.range t) ∨ Within P t
  | .rangeInclusive t => P (.rangeInclusive t) ∨ Within P t
  | .lock k t => P (.lock k t) ∨ Within P t
  | .refCell t => P (.refCell t) ∨ Within P t
  | .sizedSlice t n => P (.sizedSlice t n) ∨ Within P t
  | .tuple fs => P (.tuple fs) ∨ WithinFields P fs
  | .struct fs => P (.struct fs) ∨ WithinFields P fs
  | .enum r vs => P (.enum r vs) ∨ WithinVariants P vs
  | t => P t

/-- Some type with the property occurs within the field types. -/
def WithinFields (P : Ty → Prop) : Fields → Prop
  | .nil => False
  | .cons t fs => Within P t ∨ WithinFields P fs

/-- Some type with the property occurs within the field types of the variants. -/
def WithinVariants (P : Ty → Prop) : Variants → Prop
  | .nil => False
  | .cons _ fs vs => WithinFields P fs ∨ WithinVariants P vs

end

/-- A `LinkedList`. -/
def IsLinkedList : Ty → Prop
  | .seq .linkedList _ => True
  | _ => False

/-- A `LinkedList` or a `RefCell`. -/
def IsLinkedListOrRefCell : Ty → Prop
  | .seq .linkedList _ | .refCell _ => True
  | _ => False

/-- `char` or a `Result`. -/
def IsCharOrResult : Ty → Prop
  | .char | .result _ _ => True
  | _ => False

/-- The field types. -/
def fieldTys : Fields → List Ty
  | .nil => []
  | .cons t fs => t :: fieldTys fs

/-- The field types of all variants. -/
def variantTys : Variants → List Ty
  | .nil => []
  | .cons _ fs vs => fieldTys fs ++ variantTys vs

/-- Error types made of `Infallible` by `CollectionDecodeError` only. -/
def OnlyCollections : DecTy → Prop
  | .infallible => True
  | .coll l i => OnlyCollections l ∧ OnlyCollections i
  | _ => False

/-- What is displayed for an error, whatever its type. -/
def causeMessage : Cause → List Char
  | .enc e => e.message
  | .dec e => e.message
  | .borrow => borrowMessage

/-- `<B as ToOwned>::Owned` (std documentation): vectors for slices, strings for texts, and for types that
are `Clone` the type itself. -/
def toOwned : Ty → Ty
  | .seq .slice t => .seq .vec t
  | .str .str => .str .string
  | .cStr .cStr => .cStr .cString
  | t => t

end Oct.Spec
