import Verif.Model.Decode
/-
Recursive types: structures and enumerations with derived impls whose fields refer, through `Box`,
`Vec`, `Option` and so on, to declared types again, such as
`struct Node { value: u8, next: Option<Box<Node>> }`.

The derived impls of such a type call themselves: oct-macros/src/impls/encode_struct.rs:51-60,
oct-macros/src/impls/encode_enum.rs:64-89, oct-macros/src/impls/decode_struct.rs:29-50 and
oct-macros/src/impls/decode_enum.rs:39-77 emit one call of `Encode::encode` or `Decode::decode` per
field, whatever the field's type. `Ty` has finite types only, so a recursive type is modelled by its
unrollings: in the unrolling of depth `n`, calls nest at most `n` deep, and the innermost call would
be that of a type without values, whose decoding stops with the mark `Panic.infallible`. A program
that runs on without limit is one that hits the mark at each depth.
-/
namespace Oct

mutual

/-- The type of a field, which may refer to declared types. SIMPLIFICATION: references are not
allowed in the keys of hash maps and sets. -/
inductive RTy where
  /-- A type without references. -/
  | plain (t : Ty)
  /-- A reference to the `k`-th declared type. -/
  | named (k : Nat)
  | wrap (w : Wrap) (t : RTy)
  | array (t : RTy) (n : Nat)
  | seq (k : SeqKind) (t : RTy)
  | hashMap (k : Ty) (v : RTy)
  | option (t : RTy)
  | result (t e : RTy)
  | bound (t : RTy)
  | range (t : RTy)
  | rangeInclusive (t : RTy)
  | lock (k : LockKind) (t : RTy)
  | refCell (t : RTy)
  | sizedSlice (t : RTy) (n : Nat)
  | tuple (fs : RFields)

/-- The field types of a structure, tuple or variant. -/
inductive RFields where
  | nil
  | cons (t : RTy) (fs : RFields)

end

/-- The variants of an enumeration. -/
inductive RVariants where
  | nil
  | cons (disc : Option Nat) (fs : RFields) (vs : RVariants)

/-- A declaration with derived impls. -/
inductive Decl where
  | struct (fs : RFields)
  | enum (r : Repr) (vs : RVariants)

/-- The declarations of a program. -/
abbrev Decls := Nat → Decl

mutual

/-- Replaces each reference by a type. -/
def RTy.close (σ : Nat → Ty) : RTy → Ty
  | .plain t => t
  | .named k => σ k
  | .wrap w t => .wrap w (t.close σ)
  | .array t n => .array (t.close σ) n
  | .seq k t => .seq k (t.close σ)
  | .hashMap k v => .hashMap k (v.close σ)
  | .option t => .option (t.close σ)
  | .result t e => .result (t.close σ) (e.close σ)
  | .bound t => .bound (t.close σ)
  | .range t => .range (t.close σ)
  | .rangeInclusive t => .rangeInclusive (t.close σ)
  | .lock k t => .lock k (t.close σ)
  | .refCell t => .refCell (t.close σ)
  | .sizedSlice t n => .sizedSlice (t.close σ) n
  | .tuple fs => .tuple (fs.close σ)

/-- See `RTy.close`. -/
def RFields.close (σ : Nat → Ty) : RFields → Fields
  | .nil => .nil
  | .cons t fs => .cons (t.close σ) (fs.close σ)

end

/-- See `RTy.close`. -/
def RVariants.close (σ : Nat → Ty) : RVariants → Variants
  | .nil => .nil
  | .cons d fs vs => .cons d (fs.close σ) (vs.close σ)

/-- See `RTy.close`. -/
def Decl.close (σ : Nat → Ty) : Decl → Ty
  | .struct fs => .struct (fs.close σ)
  | .enum r vs => .enum r (vs.close σ)

/-- What stands for a declared type where calls would nest too deep: a type without values, whose
decoding is marked, and with the error type of the declared one. -/
def Decl.bottom : Decl → Ty
  | .struct _ => .struct (.cons .infallible .nil)
  | .enum _ _ => .infallible

/-- The `k`-th declared type, unrolled `n` times. -/
def unroll (D : Decls) : Nat → Nat → Ty
  | 0, k => (D k).bottom
  | n + 1, k => (D k).close (unroll D n)

/-- As `unroll`, with the types `b` in place of the marked ones. -/
def unrollWith (b : Nat → Ty) (D : Decls) : Nat → Nat → Ty
  | 0, k => b k
  | n + 1, k => (D k).close (unrollWith b D n)

mutual

/-- Replaces what a value has for each reference. -/
def RTy.lift {σ τ : Nat → Ty} (e : ∀ k, (σ k).Val → (τ k).Val) :
    (r : RTy) → (r.close σ).Val → (r.close τ).Val
  | .plain _, v => v
  | .named k, v => e k v
  | .wrap _ t, v => t.lift e v
  | .array t _, v => ⟨v.val.map (t.lift e), by simp [v.property]⟩
  | .seq _ t, v => List.map (t.lift e) v
  | .hashMap _ t, v =>
    ⟨v.val.map fun p => (p.1, t.lift e p.2), by
      have := v.property
      simpa [List.map_map, Function.comp_def] using this⟩
  | .option t, v => Option.map (t.lift e) v
  | .result t u, v =>
    match v with
    | .ok v => .ok (t.lift e v)
    | .err v => .err (u.lift e v)
  | .bound t, v =>
    match v with
    | .included v => .included (t.lift e v)
    | .excluded v => .excluded (t.lift e v)
    | .unbounded => .unbounded
  | .range t, v => ⟨t.lift e v.start, t.lift e v.stop⟩
  | .rangeInclusive t, v => ⟨t.lift e v.start, t.lift e v.stop, v.exhausted⟩
  | .lock _ t, v => ⟨v.poisoned, t.lift e v.val⟩
  | .refCell t, v => ⟨v.mutBorrowed, t.lift e v.val⟩
  | .sizedSlice t _, v => ⟨v.val.map (t.lift e), by simpa using v.property⟩
  | .tuple fs, v => fs.lift e v

/-- See `RTy.lift`. -/
def RFields.lift {σ τ : Nat → Ty} (e : ∀ k, (σ k).Val → (τ k).Val) :
    (fs : RFields) → (fs.close σ).Val → (fs.close τ).Val
  | .nil, v => v
  | .cons t fs, v => (t.lift e v.1, fs.lift e v.2)

end

/-- See `RTy.lift`. -/
def RVariants.lift {σ τ : Nat → Ty} (e : ∀ k, (σ k).Val → (τ k).Val) :
    (vs : RVariants) → (vs.close σ).Val → (vs.close τ).Val
  | .nil, v => v
  | .cons _ fs vs, v =>
    match v with
    | .inl v => .inl (fs.lift e v)
    | .inr v => .inr (vs.lift e v)

/-- See `RTy.lift`. -/
def Decl.lift {σ τ : Nat → Ty} (e : ∀ k, (σ k).Val → (τ k).Val) :
    (d : Decl) → (d.close σ).Val → (d.close τ).Val
  | .struct fs, v => fs.lift e v
  | .enum _ vs, v => vs.lift e v

/-- There are no values at depth zero. -/
def Decl.noBottom : (d : Decl) → d.bottom.Val → Empty
  | .struct _, v => v.1
  | .enum _ _, v => v

/-- A value of the unrolling of depth `n` as one of the next unrolling. -/
def raise1 (D : Decls) : (n : Nat) → (k : Nat) → (unroll D n k).Val → (unroll D (n + 1) k).Val
  | 0, k, v => ((D k).noBottom v).elim
  | n + 1, k, v => (D k).lift (raise1 D n) v

/-- A value of the unrolling of depth `n` as one of that of depth `n + j`. -/
def raise (D : Decls) (n : Nat) : (j : Nat) → (k : Nat) → (unroll D n k).Val →
    (unroll D (n + j) k).Val
  | 0, _, v => v
  | j + 1, k, v => raise1 D (n + j) k (raise D n j k v)

/-- A value of the unrolling of depth `n`, whatever is in place of the marked types. -/
def embed (b : Nat → Ty) (D : Decls) : (n : Nat) → (k : Nat) → (unroll D n k).Val →
    (unrollWith b D n k).Val
  | 0, k, v => ((D k).noBottom v).elim
  | n + 1, k, v => (D k).lift (embed b D n) v

end Oct
