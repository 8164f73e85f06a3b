import Verif.Model.Macro
/-
What Rust itself makes of the items that the derive macros read: the value of an explicit
discriminant, the discriminants of an enumeration, the type that a `repr` attribute selects, and
which of these rustc accepts. Nothing here follows the macros.
-/
namespace Oct.Spec
open Oct.Macro

/-- The value of a constant expression. -/
def exprValue : Expr → Int
  | .int base digits => (digits.foldl (fun n d => n * base + d) 0 : Nat)
  | .byte b => b.toNat
  | .neg e => -exprValue e
  | .paren e => exprValue e
  | .add a b => exprValue a + exprValue b
  | .const value => value

/-- The discriminants that Rust assigns (Rust reference, "Enumerations"): an explicit one as given;
otherwise one more than that of the preceding variant, or zero for the first. -/
def rustDiscs : Option Int → List (Option Expr) → List Int
  | _, [] => []
  | _, some e :: es => exprValue e :: rustDiscs (some (exprValue e)) es
  | some p, none :: es => (p + 1) :: rustDiscs (some (p + 1)) es
  | none, none :: es => 0 :: rustDiscs (some 0) es

/-- rustc accepts the discriminants of an enumeration with representation `r`: they are in range
and distinct. -/
def LegalDiscs (r : Repr) (es : List (Option Expr)) : Prop :=
  (∀ d ∈ rustDiscs none es, r.InRange d) ∧ (rustDiscs none es).Nodup

/-- Whether an expression is an integer literal. -/
def IsLit : Expr → Prop
  | .int _ _ => True
  | _ => False

/-- The primitive integer types by name. -/
def intTypes : List (String × Repr) :=
  [("u8", .int .u8), ("u16", .int .u16), ("u32", .int .u32), ("u64", .int .u64),
   ("u128", .int .u128), ("usize", .usize), ("i8", .int .i8), ("i16", .int .i16),
   ("i32", .int .i32), ("i64", .int .i64), ("i128", .int .i128), ("isize", .isize)]

/-- All items of the `repr` attributes. -/
def reprItems (attrs : List Attr) : List Meta :=
  (attrs.filter (·.path = "repr")).flatMap (·.metas)

/-- The integer types among the items. -/
def reprInts (attrs : List Attr) : List Repr :=
  (reprItems attrs).filterMap fun m =>
    match m with
    | .path s => intTypes.lookup s
    | .list _ => none

/-- What rustc accepts on an enumeration: integer types, `C` and `align(..)`, with at most one
integer type (E0552, E0566). -/
def LegalRepr (attrs : List Attr) : Prop :=
  (∀ m ∈ reprItems attrs,
    match m with
    | .path s => s = "C" ∨ (intTypes.lookup s).isSome
    | .list s => s = "align") ∧
  (reprInts attrs).length ≤ 1

/-- The type of the discriminants: the integer type given, else `isize` (Rust reference). -/
def rustRepr (attrs : List Attr) : Repr := (reprInts attrs).headD .isize

/-- The field types of the model. -/
def fieldsOf : List (Sel × Ty) → Fields
  | [] => .nil
  | d :: ds => .cons d.2 (fieldsOf ds)

/-- The value of a structure in the model as a list of named fields. -/
def view : (decl : List (Sel × Ty)) → (fieldsOf decl).Val → StructVal
  | [], _ => []
  | d :: ds, v => (d.1, ⟨d.2, v.1⟩) :: view ds v.2

/-- The variants of the model, with the discriminants as Rust reads them. -/
def variantsOf : List SynVariant → Variants
  | [] => .nil
  | v :: vs =>
    .cons (v.disc.map fun e => (exprValue e).toNat) (fieldsOf v.fields.decl) (variantsOf vs)

/-- The value of an enumeration in the model as a named variant with named fields. -/
def viewEnum : (vs : List SynVariant) → (variantsOf vs).Val → EnumVal
  | [], v => nomatch v
  | s :: vs, v =>
    match v with
    | .inl v => (s.name, view s.fields.decl v)
    | .inr v => viewEnum vs v

/-- The names of the fields are distinct (E0124). -/
def FieldsOk : SynFields → Prop
  | .named fs => (fs.map Prod.fst).Nodup
  | _ => True

/-- The names of the variants are distinct (E0428), as are those of their fields. -/
def VariantsOk (vs : List SynVariant) : Prop :=
  (vs.map (·.name)).Nodup ∧ ∀ v ∈ vs, FieldsOk v.fields

/-- The declarations of the variants. -/
def declsOf (vs : List SynVariant) : List (String × List (Sel × Ty)) :=
  vs.map fun v => (v.name, v.fields.decl)

/-- A decoder with another presentation of its value. -/
def mapped {α β : Type} (f : α → β) (m : Dec α) : Dec β := fun i => ((m i).1.map f, (m i).2)

/-- The generic parameters of an impl must not have defaults ("defaults for type parameters are only
allowed in `struct`, `enum`, `type`, or `trait` definitions"; for constants likewise). -/
def LegalImplParam : GenericParam → Prop
  | .lifetime _ => True
  | .ty _ dflt => dflt = false
  | .const _ dflt => dflt = false

/-- The argument that stands for a parameter. -/
def argumentFor : GenericParam → GenericName
  | .lifetime name => .lifetime name
  | .ty name _ => .ty name
  | .const name _ => .const name

end Oct.Spec
