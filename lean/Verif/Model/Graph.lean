import Verif.Model.Recursive
/-
Objects that refer to each other: values of declared types (see Model/Recursive) whose fields hold
`Rc`, `Arc` or `&` of declared types, so that objects may be shared and, through `RefCell`, `Cell` or
`static`, refer back to themselves. What the impls for these do is to call `encode` of the object referred
to: oct/src/encode/encode/mod.rs:149-156 (`&T`), 217-226 (`Arc`), 615-624 (`Rc`).

Calls may nest without end; `n` levels of calls are modelled, and where there would be more the program
stops with `stop`, which stands for the overflow of the stack.

SIMPLIFICATION: locks are never held by somebody else (see Model/Locks), in particular no object behind a
lock is met again while it is being encoded.
-/
namespace Oct

/-- Addresses, in place of references to objects. -/
abbrev addr : Nat → Ty := fun _ => .usize

/-- `obj k a` is the object of the `k`-th declared type at the address `a`. -/
abbrev Heap (D : Decls) := (k a : Nat) → ((D k).close addr).Val

mutual

/-- `encode` of a field, given that of objects: as `Ty.encode`. -/
def RTy.encodeRef (D : Decls) (ref : Nat → Nat → Enc Unit) : (r : RTy) → (r.close addr).Val → Enc Unit
  | .plain t, v => t.encode v
  | .named k, a => ref k a
  | .wrap _ t, v => t.encodeRef D ref v
  | .array t _, v => encArray (t.encodeRef D ref) v.val
  | .seq .slice t, v => encSlice (t.encodeRef D ref) v
  | .seq .vec t, v => encSlice (t.encodeRef D ref) v
  | .seq .linkedList t, v => encLinkedList (t.encodeRef D ref) v
  | .hashMap k t, v => encHashMap k.encode (t.encodeRef D ref) v.val
  | .option t, v => encOption (t.encodeRef D ref) v
  | .result t e, v =>
    encResult (t.encodeRef D ref) (e.encodeRef D ref)
      (if (t.close (unroll D 0)).encErrGeneric then EncErr.toGeneric else id) v
  | .bound t, v => encBound (t.encodeRef D ref) v
  | .range t, v => encRange (t.encodeRef D ref) v
  | .rangeInclusive t, v => encRangeInclusive (t.encodeRef D ref) v
  | .lock _ t, v => encLock (t.encodeRef D ref) v
  | .refCell t, v => encRefCell (t.encodeRef D ref) v
  | .sizedSlice t _, v => encSlice (t.encodeRef D ref) v.val
  | .tuple fs, v => fs.encodeRef D ref id v

/-- As `Fields.encode`. -/
def RFields.encodeRef (D : Decls) (ref : Nat → Nat → Enc Unit) : (fs : RFields) →
    (g : EncErr → EncErr) → (fs.close addr).Val → Enc Unit
  | .nil, _, _ => Enc.pure ()
  | .cons t fs, g, v => do
    (t.encodeRef D ref v.1).mapErr g
    fs.encodeRef D ref g v.2

end

/-- As `Variants.encode`. -/
def RVariants.encodeRef (D : Decls) (ref : Nat → Nat → Enc Unit) : (vs : RVariants) → (r : Repr) →
    (prev : Option Nat) → (vs.close addr).Val → Enc Unit
  | .nil, _, _, v => nomatch v
  | .cons d fs vs, r, prev, v =>
    match v with
    | .inl v => do
      (encRepr r (nextDisc prev d)).mapErr .badDiscriminant
      fs.encodeRef D ref (fun e => .badField e.toGeneric) v
    | .inr v => vs.encodeRef D ref r (some (nextDisc prev d)) v

/-- The derived `encode` of a declared type. -/
def Decl.encodeRef (D : Decls) (ref : Nat → Nat → Enc Unit) : (d : Decl) → (d.close addr).Val → Enc Unit
  | .struct fs, v => fs.encodeRef D ref EncErr.toGeneric v
  | .enum r vs, v => vs.encodeRef D ref r none v

/-- `encode` of an object, with at most `n` nested calls. -/
def Heap.encode {D : Decls} (H : Heap D) (stop : Panic) : Nat → (k a : Nat) → Enc Unit
  | 0, _, _ => Enc.panic stop
  | n + 1, k, a => (D k).encodeRef D (H.encode stop n) (H k a)

/-- The tree that an object unfolds to, `n` levels of it, with certain values
`below` them. -/
def Heap.unfold {D : Decls} (H : Heap D) (b : Nat → Ty) (below : ∀ k, (b k).Val) :
    (n k : Nat) → (a : Nat) → (unrollWith b D n k).Val
  | 0, k, _ => below k
  | n + 1, k, a => (D k).lift (σ := addr) (fun k a => H.unfold b below n k a) (H k a)

end Oct
