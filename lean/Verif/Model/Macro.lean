import Verif.Model.Encode
import Verif.Model.Decode
import Verif.Model.SizedEncode
/-
The derive macros (oct-macros/src): what they read, the code they emit, and what that code does.

The rest of the model takes the derived impls as recursions over `Fields` and `Variants`. Here the
macros themselves are modelled: `derive…` turns syntax into emitted code, and `…Impl.run` gives the
emitted code its Rust meaning (patterns bind captures, statements name captures, structure
expressions are evaluated in source order, the first matching arm is taken). A result `none` means
that there is no impl: the macro panics, or rustc rejects the emitted code.

SIMPLIFICATIONS: the types of the fields are types of the model, already resolved; the token streams
are data types with one constructor per shape the macros emit; spans, hygiene, paths
(`::oct::encode::Encode::encode`) and visibility are dropped.
-/
namespace Oct.Macro

/-! ### What the macros read -/

/-- How a field is named: by position, or by identifier (`syn::Member`). -/
inductive Sel where
  | index (i : Nat)
  | name (s : String)
  deriving DecidableEq

/-- `syn::Fields`: `Unit`, `Unnamed` and `Named`, as matched in
oct-macros/src/impls/encode_struct.rs:35-48. -/
inductive SynFields where
  | unit
  | unnamed (tys : List Ty)
  | named (fs : List (String × Ty))

/-- The expression after the `=` of a variant (`syn::Expr`). Only the shapes that rustc is likely
to meet are distinguished. -/
inductive Expr where
  /-- An integer literal: its base, and its digits without underscores and suffix. -/
  | int (base : Nat) (digits : List Nat)
  /-- A byte literal such as `b'a'`. -/
  | byte (b : Byte)
  | neg (e : Expr)
  | paren (e : Expr)
  | add (a b : Expr)
  /-- The path of a constant, with the value that rustc finds for it. -/
  | const (value : Int)

/-- `syn::Variant`. -/
structure SynVariant where
  name : String
  fields : SynFields
  disc : Option Expr

/-- One item of a `#[repr(..)]` list: an identifier, or an identifier with arguments
(`align(8)`). -/
inductive Meta where
  | path (ident : String)
  | list (ident : String)

/-- `syn::Attribute`: its path and, for `repr`, its items. -/
structure Attr where
  path : String
  metas : List Meta

/-- `syn::GenericParam`; `dflt` tells whether there is a default (`T = u8`, `const N: usize = 1`). -/
inductive GenericParam where
  | lifetime (name : String)
  | ty (name : String) (dflt : Bool)
  | const (name : String) (dflt : Bool)
  deriving DecidableEq

/-- `syn::Data`. -/
inductive Data where
  | struct (fs : SynFields)
  | enum (vs : List SynVariant)
  | union

/-- `syn::DeriveInput`. -/
structure DeriveInput where
  attrs : List Attr
  generics : List GenericParam
  data : Data

/-- `fields.iter()`: the fields in order, with how they are named. -/
def SynFields.decl : SynFields → List (Sel × Ty)
  | .unit => []
  | .unnamed tys => tys.zipIdx.map fun p => (.index p.2, p.1)
  | .named fs => fs.map fun p => (.name p.1, p.2)

/-! ### `Repr`: oct-macros/src/repr/mod.rs -/

/-- The comparisons of `Repr::get`: 66-78. -/
def Repr.ofIdent (ident : String) : Option Repr :=
  if ident = "u8" then some (.int .u8)
  else if ident = "i8" then some (.int .i8)
  else if ident = "u16" then some (.int .u16)
  else if ident = "i16" then some (.int .i16)
  else if ident = "u32" then some (.int .u32)
  else if ident = "i32" then some (.int .i32)
  else if ident = "u64" then some (.int .u64)
  else if ident = "i64" then some (.int .i64)
  else if ident = "u128" then some (.int .u128)
  else if ident = "i128" then some (.int .i128)
  else if ident = "usize" then some .usize
  else if ident = "isize" then some .isize
  else none

/-- `attr.parse_nested_meta(..).unwrap()`: 62-81. An item with arguments either panics (unknown
identifier) or is a parse error, which is unwrapped. -/
def Repr.getMetas : List Meta → Option Repr → Option (Option Repr)
  | [], this => some this
  | .path ident :: ms, _ =>
    match Repr.ofIdent ident with
    | some r => Repr.getMetas ms (some r)
    | none => none
  | .list _ :: _, _ => none

/-- The loop of `Repr::get`: 60-85. -/
def Repr.getFrom : List Attr → Option Repr → Option (Option Repr)
  | [], this => some this
  | a :: as, this =>
    if a.path = "repr" then
      match Repr.getMetas a.metas this with
      | some this => Repr.getFrom as this
      | none => none
    else Repr.getFrom as this

/-- `Repr::get(attrs).unwrap_or_default()`: oct-macros/src/impl_derive_macro.rs:60 and
oct-macros/src/repr/mod.rs:141-146 (the default is `isize`). -/
def Repr.get (attrs : List Attr) : Option Repr :=
  (Repr.getFrom attrs none).map fun this => this.getD .isize

/-- `Repr::to_str`: 91-107, the identifier with which the macros write the type. -/
def Repr.toStr : Repr → String
  | .int .u8 => "u8"
  | .int .i8 => "i8"
  | .int .u16 => "u16"
  | .int .i16 => "i16"
  | .int .u32 => "u32"
  | .int .i32 => "i32"
  | .int .u64 => "u64"
  | .int .i64 => "i64"
  | .int .u128 => "u128"
  | .int .i128 => "i128"
  | .usize => "usize"
  | .isize => "isize"

/-! ### `Discriminants`: oct-macros/src/discriminants/mod.rs -/

/-- The number that the digits of a literal stand for. -/
def litValue (base : Nat) (digits : List Nat) : Nat :=
  digits.foldl (fun n d => n * base + d) 0

/-- `LitInt::base10_digits` (of the `syn` crate): the value of the literal in decimal. -/
def base10Digits (base : Nat) (digits : List Nat) : List Char :=
  Nat.toDigits 10 (litValue base digits)

/-- The loop of `str::parse` for unsigned integers: checked multiplication and addition. -/
def parseFrom (limit : Nat) : Nat → List Char → Option Nat
  | n, [] => some n
  | n, c :: cs =>
    if c.isDigit then
      if 10 * n + (c.toNat - 48) < limit then parseFrom limit (10 * n + (c.toNat - 48)) cs else none
    else none

/-- `str::parse` for a string without a sign. -/
def parse (limit : Nat) (s : List Char) : Option Nat :=
  if s = [] then none else parseFrom limit 0 s

/-- An explicit discriminant: 50-64. `none` is a panic: the expression is not a literal (50-52), not
an integer literal (54-56), or parsed neither as `u128` nor as `i128` (60-63). -/
def explicitDisc : Expr → Option Nat
  | .int base digits =>
    let expr := base10Digits base digits
    (parse (2 ^ 128) expr).orElse fun _ => parse (2 ^ 127) expr
  | _ => none

/-- `Discriminants::next`, until the end: 46-79. The elements are the texts of the emitted literals
(`LitInt::new(&discriminant.to_string(), ..)`). `none` is a panic, which includes the overflow of
67-69. -/
def discriminants : List (Option Expr) → (prev : Option Nat) → Option (List (List Char))
  | [], _ => some []
  | e :: es, prev => do
    let d ←
      match e with
      | some e => explicitDisc e
      | none =>
        match prev with
        | some p => if p + 1 < 2 ^ 128 then some (p + 1) else none
        | none => some 0
    let ds ← discriminants es (some d)
    pure (Nat.toDigits 10 d :: ds)

/-! ### The emitted code -/

/-- `Self::Name (ref value0, ..)` or `Self::Name { field: ref value0, .. }`: the fields that are
bound and the captures they are bound to. -/
abbrev Pattern := List (Sel × String)

/-- One arm of the `match *self`: oct-macros/src/impls/encode_enum.rs:75-86. -/
structure EncodeArm where
  variant : String
  pattern : Pattern
  /-- The literal of the discriminant. -/
  lit : List Char
  /-- The captures encoded, in order. -/
  stmts : List String

/-- The emitted `impl Encode`. -/
inductive EncodeImpl where
  | struct (pattern : Pattern) (stmts : List String)
  | enum (repr : String) (arms : List EncodeArm)

/-- One arm of the `match discriminant`: oct-macros/src/impls/decode_enum.rs:73-77. -/
structure DecodeArm where
  lit : List Char
  variant : String
  /-- The fields of the structure expression, in order, each with a `Decode::decode(stream)`. -/
  inits : List Sel

/-- The emitted `impl Decode`. -/
inductive DecodeImpl where
  | struct (inits : List Sel)
  | enum (repr : String) (arms : List DecodeArm)

/-- A type named in the emitted constant: that of a field, or the representation. -/
inductive TyName where
  | field (t : Ty)
  | repr (ident : String)

/-- The emitted `impl SizedEncode`. -/
inductive SizedImpl where
  | struct (tys : List TyName)
  | enum (variants : List (List TyName))

/-- `.enumerate().map(|(index, _)| Ident::new(&format!("value{index}"), ..))`:
oct-macros/src/impls/encode_struct.rs:28-33, encode_enum.rs:36-41. -/
def captures (n : Nat) : List String :=
  (List.range n).map fun i => "value" ++ toString i

/-- The `match` on the fields that builds a pattern: encode_struct.rs:35-48, encode_enum.rs:52-65. A
tuple pattern is positional; `#(#field_names: ref #captures, )*` pairs names and captures. -/
def patternOf (fs : SynFields) (captures : List String) : Pattern :=
  match fs with
  | .unit => []
  | .unnamed _ => captures.zipIdx.map fun p => (.index p.2, p.1)
  | .named fs => (fs.map fun p => Sel.name p.1).zip captures

/-- `encode_struct`: oct-macros/src/impls/encode_struct.rs:27-65. -/
def encodeStruct (fs : SynFields) : EncodeImpl :=
  .struct (patternOf fs (captures fs.decl.length)) (captures fs.decl.length)

/-- `encode_enum`: oct-macros/src/impls/encode_enum.rs:29-94. The repetition zips patterns,
discriminants and captures. -/
def encodeEnum (vs : List SynVariant) (repr : Repr) : Option EncodeImpl := do
  let discriminants ← discriminants (vs.map (·.disc)) none
  pure (.enum (Repr.toStr repr) ((vs.zip discriminants).map fun p =>
    { variant := p.1.name
      pattern := patternOf p.1.fields (captures p.1.fields.decl.length)
      lit := p.2
      stmts := captures p.1.fields.decl.length }))

/-- The structure expression of `decode_struct` and `decode_enum`:
oct-macros/src/impls/decode_struct.rs:37-50, decode_enum.rs:48-60. -/
def initsOf : SynFields → List Sel
  | .unit => []
  | .unnamed tys => (List.range tys.length).map .index
  | .named fs => fs.map fun p => .name p.1

/-- `decode_struct`: oct-macros/src/impls/decode_struct.rs:28-61. -/
def decodeStruct (fs : SynFields) : DecodeImpl := .struct (initsOf fs)

/-- `decode_enum`: oct-macros/src/impls/decode_enum.rs:30-82. -/
def decodeEnum (vs : List SynVariant) (repr : Repr) : Option DecodeImpl := do
  let discriminants ← discriminants (vs.map (·.disc)) none
  pure (.enum (Repr.toStr repr) ((discriminants.zip vs).map fun p =>
    { lit := p.1, variant := p.2.name, inits := initsOf p.2.fields }))

/-- `sized_encode_struct`: oct-macros/src/impls/sized_encode_struct.rs:27-36. -/
def sizedEncodeStruct (fs : SynFields) : SizedImpl :=
  .struct (fs.decl.map fun p => .field p.2)

/-- `sized_encode_enum`: oct-macros/src/impls/sized_encode_enum.rs:30-59. The discriminants are not
looked at. -/
def sizedEncodeEnum (vs : List SynVariant) (repr : Repr) : SizedImpl :=
  .enum (vs.map fun v => (v.fields.decl.map fun p => .field p.2) ++ [.repr (Repr.toStr repr)])

/-- `impl_derive_macro` with the bodies of `derive_encode`:
oct-macros/src/impl_derive_macro.rs:56-66, oct-macros/src/lib.rs:66-80. -/
def deriveEncode (input : DeriveInput) : Option EncodeImpl :=
  match input.data with
  | .struct fs => some (encodeStruct fs)
  | .enum vs => (Repr.get input.attrs).bind (encodeEnum vs)
  | .union => none

/-- `derive_decode`: oct-macros/src/lib.rs:49-63. -/
def deriveDecode (input : DeriveInput) : Option DecodeImpl :=
  match input.data with
  | .struct fs => some (decodeStruct fs)
  | .enum vs => (Repr.get input.attrs).bind (decodeEnum vs)
  | .union => none

/-- `derive_sized_encode`: oct-macros/src/lib.rs:83-97. -/
def deriveSizedEncode (input : DeriveInput) : Option SizedImpl :=
  match input.data with
  | .struct fs => some (sizedEncodeStruct fs)
  | .enum vs => (Repr.get input.attrs).map (sizedEncodeEnum vs)
  | .union => none

/-- A name given as a generic argument: oct-macros/src/generic_name/mod.rs:35-45. -/
inductive GenericName where
  | const (ident : String)
  | lifetime (ident : String)
  | ty (ident : String)
  deriving DecidableEq

/-- `GenericName::extract_from`: oct-macros/src/generic_name/mod.rs:50-64. -/
def GenericName.extractFrom (params : List GenericParam) : List GenericName :=
  params.map fun p =>
    match p with
    | .const name _ => .const name
    | .lifetime name => .lifetime name
    | .ty name _ => .ty name

/-- `impl<#generic_params> #trait_path for #self_name<#generic_names>`:
oct-macros/src/impl_derive_macro.rs:68-80. -/
structure ImplHeader where
  params : List GenericParam
  args : List GenericName

/-- See `ImplHeader`. -/
def implHeader (input : DeriveInput) : ImplHeader :=
  { params := input.generics, args := GenericName.extractFrom input.generics }

/-! ### What the emitted code does -/

/-- A value of some type. -/
abbrev AnyVal := Σ t : Ty, t.Val

/-- A value of a structure or variant: its fields, in the order of the declaration. -/
abbrev StructVal := List (Sel × AnyVal)

/-- A value of an enumeration: the name of the variant and its fields. -/
abbrev EnumVal := String × StructVal

/-- Binding a pattern. rustc demands that each field be bound once (E0025, E0026, E0027) and that
the captures be distinct (E0416). -/
def Pattern.bind (p : Pattern) (v : StructVal) : Option (List (String × AnyVal)) :=
  if (p.map Prod.fst).isPerm (v.map Prod.fst) ∧ (p.map Prod.snd).Nodup then
    p.mapM fun b => (v.lookup b.1).map fun x => (b.2, x)
  else none

/-- The statements `Encode::encode(#captures, stream).map_err(..)?;`. -/
def runStmts (g : EncErr → EncErr) (env : List (String × AnyVal)) : List String → Option (Enc Unit)
  | [] => some (Enc.pure ())
  | c :: cs => do
    let x ← env.lookup c
    let rest ← runStmts g env cs
    pure ((x.1.encode x.2).mapErr g >>= fun _ => rest)

/-- How rustc resolves the identifier that names the representation. -/
def resolve (ident : String) : Option Repr :=
  match ident with
  | "u8" => some (.int .u8)
  | "i8" => some (.int .i8)
  | "u16" => some (.int .u16)
  | "i16" => some (.int .i16)
  | "u32" => some (.int .u32)
  | "i32" => some (.int .i32)
  | "u64" => some (.int .u64)
  | "i64" => some (.int .i64)
  | "u128" => some (.int .u128)
  | "i128" => some (.int .i128)
  | "usize" => some .usize
  | "isize" => some .isize
  | _ => none

/-- The value of an emitted decimal literal. -/
def readLit (lit : List Char) : Nat := Nat.ofDigitChars 10 lit 0

/-- `let #pattern = self; ..` of a structure: encode_struct.rs:55-62. -/
def EncodeImpl.runStruct (c : EncodeImpl) (v : StructVal) : Option (Enc Unit) :=
  match c with
  | .struct pattern stmts => do
    let env ← pattern.bind v
    runStmts EncErr.toGeneric env stmts
  | .enum _ _ => none

/-- `match *self { .. }` of an enumeration: encode_enum.rs:74-89. The first arm of the variant is
taken. -/
def EncodeImpl.runEnum (c : EncodeImpl) (v : EnumVal) : Option (Enc Unit) :=
  match c with
  | .struct _ _ => none
  | .enum repr arms => do
    let repr ← resolve repr
    match arms.find? (·.variant = v.1) with
    | none => pure fun o => (.panic .unreachable, o)
    | some arm => do
      let env ← arm.pattern.bind v.2
      let fields ← runStmts (fun e => .badField e.toGeneric) env arm.stmts
      pure ((encRepr repr (readLit arm.lit)).mapErr .badDiscriminant >>= fun _ => fields)

/-- The commands of a structure expression, in the order in which they are written; each is decoded
at the type of its field. -/
def runInits (g : DecErr → DecErr) (decl : List (Sel × Ty)) : List Sel → Option (Dec StructVal)
  | [] => some (Dec.pure [])
  | s :: ss => do
    let t ← decl.lookup s
    let rest ← runInits g decl ss
    pure (t.decode.mapErr g >>= fun v => rest >>= fun vs => Dec.pure ((s, ⟨t, v⟩) :: vs))

/-- The value that a structure expression yields: the fields in the order of the declaration. -/
def arrange (decl : List (Sel × Ty)) (vs : StructVal) : StructVal :=
  decl.filterMap fun d => (vs.lookup d.1).map fun x => (d.1, x)

/-- A structure expression. rustc demands that each field be given once (E0062, E0063, E0560). -/
def runExpr (g : DecErr → DecErr) (decl : List (Sel × Ty)) (inits : List Sel) :
    Option (Dec StructVal) :=
  if inits.isPerm (decl.map Prod.fst) then
    (runInits g decl inits).map fun m => m >>= fun vs => Dec.pure (arrange decl vs)
  else none

/-- The emitted `decode` of a structure: decode_struct.rs:55-60. -/
def DecodeImpl.runStruct (c : DecodeImpl) (decl : List (Sel × Ty)) : Option (Dec StructVal) :=
  match c with
  | .struct inits => runExpr DecErr.toGeneric decl inits
  | .enum _ _ => none

/-- The arms of the `match discriminant`, in order, then `UnassignedDiscriminant`: 73-77. Every arm
has to be accepted by rustc, also those that are not taken. -/
def runArms (decls : List (String × List (Sel × Ty))) :
    List DecodeArm → Option (Int → Dec EnumVal)
  | [] => some fun x => Dec.fail (.unassigned x)
  | arm :: arms => do
    let decl ← decls.lookup arm.variant
    let fields ← runExpr (fun e => .badField e.toGeneric) decl arm.inits
    let rest ← runArms decls arms
    pure fun x =>
      if x = (readLit arm.lit : Int) then fields >>= fun vs => Dec.pure (arm.variant, vs) else rest x

/-- The emitted `decode` of an enumeration: decode_enum.rs:68-81. -/
def DecodeImpl.runEnum (c : DecodeImpl) (decls : List (String × List (Sel × Ty))) :
    Option (Dec EnumVal) :=
  match c with
  | .struct _ => none
  | .enum repr arms => do
    let repr ← resolve repr
    let arms ← runArms decls arms
    pure (decRepr repr >>= arms)

/-- `<#ty as SizedEncode>::MAX_ENCODED_SIZE`. -/
def TyName.maxSize (sizeOf : Ty → Nat) : TyName → Option Nat
  | .field t => some (t.maxSize sizeOf)
  | .repr ident => (resolve ident).map Repr.bytes

/-- `0x0 #(+ <#tys as SizedEncode>::MAX_ENCODED_SIZE)*`, from left to right. -/
def sumSizes (sizeOf : Ty → Nat) : Nat → List TyName → Option Nat
  | n, [] => some n
  | n, t :: ts => do
    let k ← t.maxSize sizeOf
    sumSizes sizeOf (n + k) ts

/-- `if current_size > total_size { total_size = current_size }`, for each variant:
sized_encode_enum.rs:50-56. -/
def maxSizes (sizeOf : Ty → Nat) : Nat → List (List TyName) → Option Nat
  | total, [] => some total
  | total, ts :: tss => do
    let current ← sumSizes sizeOf 0 ts
    maxSizes sizeOf (if current > total then current else total) tss

/-- The emitted constant. -/
def SizedImpl.run (sizeOf : Ty → Nat) : SizedImpl → Option Nat
  | .struct tys => sumSizes sizeOf 0 tys
  | .enum variants => maxSizes sizeOf 0 variants

end Oct.Macro
