import Verif.Model.Macro
/-
The names that emitted code uses, and what the place where a type is derived makes of them.

All identifiers of the emitted code have the span `Span::call_site()`, by `quote!` or explicitly
(oct-macros/src/impls/encode_struct.rs:32, encode_enum.rs:40, sized_encode_enum.rs:39,
oct-macros/src/repr/mod.rs:151): they are resolved as if they had been written by hand next to the
derived type. Of these,

* paths begin with `::oct` or `::core`;
* representations are plain identifiers (`u8`, .., repr/mod.rs:92-107, 109-138), and so is `usize` in
  `const MAX_ENCODED_SIZE: usize` (sized_encode_struct.rs:34, sized_encode_enum.rs:45);
* `stream`, `this`, `discriminant`, `value`, `value0`, .., `total_size` and `current_size` are bound in
  patterns.

A type in scope, or a type parameter, has precedence over a primitive type of the same name. An
identifier in a pattern is no binding if a constant, static, unit or tuple structure or variant, or const
parameter of that name is in scope.

SIMPLIFICATIONS: an emitted binding whose name is taken in this way is refused. (rustc does so by E0530,
E0158, or by type; it does accept `let this` where `this` is the unit structure that is being derived, and
`value` where it is a constant and all other discriminants are assigned, with the same meaning.) A
literal that is none of its type is refused (`overflowing_literals`). `::core` is what it always is.
-/
namespace Oct.Macro

/-- What a name means as a type, if the place says so. -/
inductive TypeMeaning where
  /-- An alias of an integer type, as by `type u8 = u16;`. -/
  | int (r : Repr)
  /-- Any other type, or a type parameter. -/
  | other

/-- What names mean at a place. -/
structure Scope where
  /-- Whether the crate goes by the name `oct`. (In Cargo.toml, it can be given another.) -/
  oct : Bool
  types : String → Option TypeMeaning
  /-- Whether an identifier in a pattern stands for something. -/
  taken : String → Bool

/-- A place at which no name that matters has a meaning of its own. -/
def Scope.plain : Scope := ⟨true, fun _ => none, fun _ => false⟩

/-- All bindings are accepted, and so are paths. -/
def Scope.accepts (σ : Scope) (bindings : List String) : Bool :=
  σ.oct && bindings.all fun b => !σ.taken b

/-- How rustc resolves the name of a representation. -/
def Scope.resolve (σ : Scope) (ident : String) : Option Repr :=
  match σ.types ident with
  | none => Macro.resolve ident
  | some (.int r) => some r
  | some .other => none

/-- The literals are of the type. -/
def holds (r : Repr) (lits : List (List Char)) : Bool :=
  lits.all fun l => decide (r.InRange (readLit l))

/-- The identifiers that the emitted `encode` binds: encode_struct.rs:54-55, encode_enum.rs:73-76. -/
def EncodeImpl.bindings : EncodeImpl → List String
  | .struct pattern _ => "stream" :: pattern.map Prod.snd
  | .enum _ arms => "stream" :: arms.flatMap fun a => a.pattern.map Prod.snd

/-- The identifiers that the emitted `decode` binds: decode_struct.rs:56-57, decode_enum.rs:68-76. -/
def DecodeImpl.bindings : DecodeImpl → List String
  | .struct _ => ["stream", "this"]
  | .enum _ _ => ["stream", "discriminant", "this", "value"]

/-- The identifiers that the emitted constant binds: sized_encode_enum.rs:46-48. -/
def SizedImpl.bindings : SizedImpl → List String
  | .struct _ => []
  | .enum _ => ["total_size", "current_size"]

/-- The emitted `encode` of a structure. -/
def EncodeImpl.runStructIn (σ : Scope) (c : EncodeImpl) (v : StructVal) : Option (Enc Unit) :=
  if σ.accepts c.bindings then c.runStruct v else none

/-- The emitted `encode` of an enumeration. -/
def EncodeImpl.runEnumIn (σ : Scope) (c : EncodeImpl) (v : EnumVal) : Option (Enc Unit) :=
  match c with
  | .struct _ _ => none
  | .enum repr arms =>
    if σ.accepts c.bindings then do
      let r ← σ.resolve repr
      if holds r (arms.map (·.lit)) then (EncodeImpl.enum (Repr.toStr r) arms).runEnum v else none
    else none

/-- The emitted `decode` of a structure. -/
def DecodeImpl.runStructIn (σ : Scope) (c : DecodeImpl) (decl : List (Sel × Ty)) :
    Option (Dec StructVal) :=
  if σ.accepts c.bindings then c.runStruct decl else none

/-- The emitted `decode` of an enumeration. -/
def DecodeImpl.runEnumIn (σ : Scope) (c : DecodeImpl) (decls : List (String × List (Sel × Ty))) :
    Option (Dec EnumVal) :=
  match c with
  | .struct _ => none
  | .enum repr arms =>
    if σ.accepts c.bindings then do
      let r ← σ.resolve repr
      if holds r (arms.map (·.lit)) then (DecodeImpl.enum (Repr.toStr r) arms).runEnum decls else none
    else none

/-- A type that is named in the emitted constant. -/
def TyName.inScope (σ : Scope) : TyName → Option TyName
  | .field t => some (.field t)
  | .repr ident => (σ.resolve ident).map fun r => .repr (Repr.toStr r)

/-- The emitted constant. Its type has to be that of the trait. -/
def SizedImpl.runIn (σ : Scope) (sizeOf : Ty → Nat) (c : SizedImpl) : Option Nat :=
  if σ.accepts c.bindings && decide (σ.resolve "usize" = some .usize) then
    match c with
    | .struct tys => do
      let tys ← tys.mapM (TyName.inScope σ)
      (SizedImpl.struct tys).run sizeOf
    | .enum variants => do
      let variants ← variants.mapM fun tys => tys.mapM (TyName.inScope σ)
      (SizedImpl.enum variants).run sizeOf
  else none

end Oct.Macro
