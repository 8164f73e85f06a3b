import Verif.Model.Decode
import Verif.Spec.Derived
/-
Types that take the place of other types: what an old program wrote as the one, a new program reads
as the other.
-/
namespace Oct.Spec
open Oct

/-- Rust's rule for the discriminant of a variant: the explicit one, else that of the variant before
and one, else zero. -/
def numbered (before explicit : Option Nat) : Nat :=
  explicit.getD ((before.map (· + 1)).getD 0)

/-- Among the variants, of which the first follows one with the discriminant `before`, the first with
the discriminant `n` has the fields `gs`, and `f` makes it of them. -/
inductive Numbered : (us : Variants) → (before : Option Nat) → (n : Nat) → (gs : Fields) →
    (gs.Val → us.Val) → Prop
  | here (d : Option Nat) (gs : Fields) (us : Variants) (before : Option Nat) :
    Numbered (.cons d gs us) before (numbered before d) gs (Sum.inl : gs.Val → gs.Val ⊕ us.Val)
  | there (d : Option Nat) (fs : Fields) {us : Variants} (before : Option Nat) {n : Nat} {gs : Fields}
    {f : gs.Val → us.Val} : numbered before d ≠ n → Numbered us (some (numbered before d)) n gs f →
    Numbered (.cons d fs us) before n gs (fun v => (Sum.inr (f v) : fs.Val ⊕ us.Val))

/-- `n` fields of the same type. -/
def times (t : Ty) : Nat → Fields
  | 0 => .nil
  | n + 1 => .cons t (times t n)

/-- Items as fields. -/
def timesVals (t : Ty) : (n : Nat) → Items t.Val n → (times t n).Val
  | 0, _ => ()
  | _ + 1, ⟨[], h⟩ => nomatch h
  | n + 1, ⟨a :: l, h⟩ => (a, timesVals t n ⟨l, Nat.succ.inj h⟩)

/-- The entries of a map with both keys and values exchanged. -/
def exchangeEntries {α β γ δ : Type} (f : α → γ) (g : β → δ) (hf : ∀ a b, f a = f b → a = b)
    (m : MapVal α β) : MapVal γ δ :=
  ⟨m.1.map (fun p => (f p.1, g p.2)), by
    have h := m.2
    rw [List.map_map]
    have : (Prod.fst ∘ fun p : α × β => (f p.1, g p.2)) = f ∘ Prod.fst := rfl
    rw [this, ← List.map_map]
    exact h.map f fun a b hab e => hab (hf a b e)⟩

/-- The items of a set exchanged. -/
def exchangeItems {α γ : Type} (f : α → γ) (hf : ∀ a b, f a = f b → a = b)
    (m : SetVal α) : SetVal γ :=
  ⟨m.1.map f, m.2.map f fun a b hab e => hab (hf a b e)⟩

/-- The octets of a text as numbers. -/
def octets (l : List Byte) : List (Ty.num (.int .u8)).Val := l.map fun b => b.toBitVec

/-- `enum Bound<T> { Included(T), Excluded(T), Unbounded }` as a derived enumeration. -/
abbrev boundEnum (t : Ty) : Ty :=
  .enum (.int .u8) (.cons none (.cons t .nil) (.cons none (.cons t .nil) (.cons none .nil .nil)))

/-- `enum Option<T> { None, Some(T) }` as a derived enumeration. -/
abbrev optionEnum (t : Ty) : Ty :=
  .enum (.int .u8) (.cons none .nil (.cons none (.cons t .nil) .nil))

/-- `enum Result<T, E> { Ok(T), Err(E) }` as a derived enumeration. -/
abbrev resultEnum (t e : Ty) : Ty :=
  .enum (.int .u8) (.cons none (.cons t .nil) (.cons none (.cons e .nil) .nil))

/-- `enum { V4(A) = 4, V6(B) = 6 }` as a derived enumeration. -/
abbrev versionEnum (a b : Ty) : Ty :=
  .enum (.int .u8) (.cons (some 4) (.cons a .nil) (.cons (some 6) (.cons b .nil) .nil))

mutual

/-- `u` takes the place of `t`; a value of `t` becomes the value of `u` that the function gives. If
`exact` is `true`, only types are exchanged such that the one reads nothing but encodings, or both read
the same of what is not an encoding. -/
inductive Recast : (exact : Bool) → (t u : Ty) → (t.Val → u.Val) → Prop
  | same (x : Bool) (t : Ty) : Recast x t t id
  | trans {x : Bool} {s t u : Ty} {f : s.Val → t.Val} {g : t.Val → u.Val} :
    Recast x s t f → Recast x t u g → Recast x s u (fun v => g (f v))
  -- Pointers, cells and locks come and go.
  | unwrap (x : Bool) (w : Wrap) (t : Ty) : Recast x (.wrap w t) t id
  | rewrap (x : Bool) (w : Wrap) (t : Ty) : Recast x t (.wrap w t) id
  | unlock (x : Bool) (k : LockKind) (t : Ty) : Recast x (.lock k t) t (fun v => v.val)
  | relock (x : Bool) (k : LockKind) (t : Ty) : Recast x t (.lock k t) (fun v => ⟨false, v⟩)
  | unborrow (x : Bool) (t : Ty) : Recast x (.refCell t) t (fun v => v.val)
  | reborrow (x : Bool) (t : Ty) : Recast x t (.refCell t) (fun v => ⟨false, v⟩)
  -- Sequences and texts.
  | seqKind (x : Bool) (k k' : SeqKind) (t : Ty) : Recast x (.seq k t) (.seq k' t) (fun v => v)
  | grown (t : Ty) (n : Nat) (k : SeqKind) : Recast false (.sizedSlice t n) (.seq k t) (fun v => v.val)
  | strKind (x : Bool) (k k' : StrKind) : Recast x (.str k) (.str k') (fun v => ⟨v.1, v.2⟩)
  | cStrKind (x : Bool) (k k' : CStrKind) : Recast x (.cStr k) (.cStr k') (fun v => ⟨v.1, v.2⟩)
  | longer (x : Bool) (n m : Nat) (h : n ≤ m) : Recast x (.sizedStr n) (.sizedStr m)
      (fun v => ⟨v.1, v.2.1, Nat.le_trans v.2.2 h⟩)
  | unsized (x : Bool) (n : Nat) (k : StrKind) : Recast x (.sizedStr n) (.str k)
      (fun v => ⟨v.1, v.2.1⟩)
  | textOctets (x : Bool) (k : StrKind) (k' : SeqKind) :
    Recast x (.str k) (.seq k' (.num (.int .u8))) (fun v => octets v.1)
  | cTextOctets (x : Bool) (k : CStrKind) (k' : SeqKind) :
    Recast x (.cStr k) (.seq k' (.num (.int .u8))) (fun v => octets v.1)
  -- Numbers.
  | width (x : Bool) (k k' : NumKind) (h : k.bytes = k'.bytes) : Recast x (.num k) (.num k')
      (fun v => BitVec.cast (congrArg (8 * ·) h) (show BitVec (8 * k.bytes) from v))
  | usizeNum (x : Bool) : Recast x .usize (.num (.int .u16)) (fun v => BitVec.ofNat 16 v)
  | numUsize (x : Bool) : Recast x (.num (.int .u16)) .usize (fun v => (show BitVec 16 from v).toNat)
  | isizeNum (x : Bool) : Recast x .isize (.num (.int .i16)) (fun v => BitVec.ofInt 16 v)
  | numIsize (x : Bool) : Recast x (.num (.int .i16)) .isize (fun v => (show BitVec 16 from v).toInt)
  | zeroed (x : Bool) (k : IntKind) : Recast x (.nonZero (.int k)) (.num (.int k))
      (fun v => BitVec.ofInt (8 * k.bytes) v.1)
  | zeroedUsize (x : Bool) : Recast x (.nonZero .usize) .usize (fun v => v.1.toNat)
  | zeroedIsize (x : Bool) : Recast x (.nonZero .isize) .isize (fun v => v.1)
  | boolNum : Recast false .bool (.num (.int .u8)) (fun b => if (show Bool from b) then 1#8 else 0#8)
  | charNum : Recast false .char (.num (.int .u32)) (fun c => BitVec.ofNat 32 (show Char from c).toNat)
  -- Types of the standard library and derived types of the same shape.
  | unitKind (x : Bool) (k k' : UnitKind) : Recast x (.unit k) (.unit k') (fun _ => ())
  | unitStruct (x : Bool) (k : UnitKind) : Recast x (.unit k) (.struct .nil) (fun _ => ())
  | tupleStruct (x : Bool) (fs : Fields) : Recast x (.tuple fs) (.struct fs) id
  | structTuple (x : Bool) (fs : Fields) : Recast x (.struct fs) (.tuple fs) id
  | newtype (x : Bool) (t : Ty) : Recast x t (.struct (.cons t .nil)) (fun v => (v, ()))
  | oldtype (x : Bool) (t : Ty) : Recast x (.struct (.cons t .nil)) t (fun v => v.1)
  | arrayFields (x : Bool) (t : Ty) (n : Nat) : Recast x (.array t n) (.struct (times t n)) (timesVals t n)
  | rangeFields (x : Bool) (t : Ty) : Recast x (.range t) (.struct (.cons t (.cons t .nil)))
      (fun v => (v.start, v.stop, ()))
  | fieldsRange (x : Bool) (t : Ty) : Recast x (.struct (.cons t (.cons t .nil))) (.range t)
      (fun v => ⟨v.1, v.2.1⟩)
  | inclusiveFields (x : Bool) (t : Ty) : Recast x (.rangeInclusive t) (.struct (.cons t (.cons t .nil)))
      (fun v => (v.start, v.stop, ()))
  | fieldsInclusive (x : Bool) (t : Ty) : Recast x (.struct (.cons t (.cons t .nil))) (.rangeInclusive t)
      (fun v => ⟨v.1, v.2.1, false⟩)
  | boundVariants (x : Bool) (t : Ty) : Recast x (.bound t) (boundEnum t) (fun v => match v with
      | .included a => .inl (a, ()) | .excluded a => .inr (.inl (a, ())) | .unbounded => .inr (.inr (.inl ())))
  | optionVariants (t : Ty) : Recast false (.option t) (optionEnum t) (fun v => match v with
      | none => .inl () | some a => .inr (.inl (a, ())))
  | resultVariants (t e : Ty) : Recast false (.result t e) (resultEnum t e) (fun v => match v with
      | .ok a => .inl (a, ()) | .err a => .inr (.inl (a, ())))
  | durationFields : Recast false .duration
      (.struct (.cons (.num (.int .u64)) (.cons (.num (.int .u32)) .nil)))
      (fun v => (v.secs, BitVec.ofNat 32 v.nanos, ()))
  | ipv4Num (x : Bool) : Recast x .ipv4 (.num (.int .u32)) (fun v => BitVec.ofNat 32 (fromBe v.1))
  | ipv6Num (x : Bool) : Recast x .ipv6 (.num (.int .u128)) (fun v => BitVec.ofNat 128 (fromBe v.1))
  | ipVariants (x : Bool) : Recast x .ipAddr (versionEnum .ipv4 .ipv6) (fun v => match v with
      | .v4 a => .inl (a, ()) | .v6 a => .inr (.inl (a, ())))
  | socketV4Fields (x : Bool) : Recast x .socketAddrV4
      (.struct (.cons .ipv4 (.cons (.num (.int .u16)) .nil))) (fun v => (v.ip, v.port, ()))
  | socketV6Fields (x : Bool) : Recast x .socketAddrV6
      (.struct (.cons .ipv6 (.cons (.num (.int .u16)) (.cons (.num (.int .u32))
        (.cons (.num (.int .u32)) .nil))))) (fun v => (v.ip, v.port, v.flowinfo, v.scopeId, ()))
  | socketVariants (x : Bool) : Recast x .socketAddr (versionEnum .socketAddrV4 .socketAddrV6)
      (fun v => match v with | .v4 a => .inl (a, ()) | .v6 a => .inr (.inl (a, ())))
  -- The parts of a type.
  | array {x : Bool} (n : Nat) {t u : Ty} {f : t.Val → u.Val} : Recast x t u f →
    Recast x (.array t n) (.array u n) (fun v => ⟨v.1.map f, (List.length_map _).trans v.2⟩)
  | seq {x : Bool} (k : SeqKind) {t u : Ty} {f : t.Val → u.Val} : Recast x t u f →
    Recast x (.seq k t) (.seq k u) (List.map f)
  | hashMap {x : Bool} {k l t u : Ty} {f : k.Val → l.Val} {g : t.Val → u.Val}
    (hf : ∀ a b, f a = f b → a = b) : Recast x k l f → Recast x t u g →
    Recast x (.hashMap k t) (.hashMap l u) (exchangeEntries f g hf)
  | hashSet {x : Bool} {k l : Ty} {f : k.Val → l.Val} (hf : ∀ a b, f a = f b → a = b) :
    Recast x k l f → Recast x (.hashSet k) (.hashSet l) (exchangeItems f hf)
  | option {x : Bool} {t u : Ty} {f : t.Val → u.Val} : Recast x t u f →
    Recast x (.option t) (.option u) (Option.map f)
  | result {x : Bool} {t u t' u' : Ty} {f : t.Val → u.Val} {f' : t'.Val → u'.Val} :
    Recast x t u f → Recast x t' u' f' →
    Recast x (.result t t') (.result u u')
      (fun v => match v with | .ok a => .ok (f a) | .err b => .err (f' b))
  | bound {x : Bool} {t u : Ty} {f : t.Val → u.Val} : Recast x t u f →
    Recast x (.bound t) (.bound u) (fun v => match v with
      | .included a => .included (f a) | .excluded a => .excluded (f a) | .unbounded => .unbounded)
  | range {x : Bool} {t u : Ty} {f : t.Val → u.Val} : Recast x t u f →
    Recast x (.range t) (.range u) (fun v => ⟨f v.start, f v.stop⟩)
  | rangeInclusive {x : Bool} {t u : Ty} {f : t.Val → u.Val} : Recast x t u f →
    Recast x (.rangeInclusive t) (.rangeInclusive u) (fun v => ⟨f v.start, f v.stop, v.exhausted⟩)
  | lock {x : Bool} (k : LockKind) {t u : Ty} {f : t.Val → u.Val} : Recast x t u f →
    Recast x (.lock k t) (.lock k u) (fun v => ⟨v.poisoned, f v.val⟩)
  | refCell {x : Bool} {t u : Ty} {f : t.Val → u.Val} : Recast x t u f →
    Recast x (.refCell t) (.refCell u) (fun v => ⟨v.mutBorrowed, f v.val⟩)
  | sizedSlice {x : Bool} (n : Nat) {t u : Ty} {f : t.Val → u.Val} : Recast x t u f →
    Recast x (.sizedSlice t n) (.sizedSlice u n)
      (fun v => ⟨v.1.map f, Nat.le_trans (Nat.le_of_eq (List.length_map _)) v.2⟩)
  | struct {x : Bool} {fs gs : Fields} {f : fs.Val → gs.Val} : RecastFields x fs gs f →
    Recast x (.struct fs) (.struct gs) f
  | enum {x : Bool} (r : Repr) {vs ws : Variants} {f : vs.Val → ws.Val} :
    RecastVariants x ws vs none f → Recast x (.enum r vs) (.enum r ws) f

/-- Field by field, where a structure as the first field may be dissolved into its fields. -/
inductive RecastFields : (exact : Bool) → (fs gs : Fields) → (fs.Val → gs.Val) → Prop
  | nil (x : Bool) : RecastFields x .nil .nil id
  | cons {x : Bool} {t u : Ty} {f : t.Val → u.Val} {fs gs : Fields} {g : fs.Val → gs.Val} :
    Recast x t u f → RecastFields x fs gs g →
    RecastFields x (.cons t fs) (.cons u gs) (fun v => (f v.1, g v.2))
  | dissolve {x : Bool} (es : Fields) {fs gs : Fields} {g : fs.Val → gs.Val} : RecastFields x fs gs g →
    RecastFields x (.cons (.struct es) fs) (appendFields es gs) (fun v => appendVals es v.1 (g v.2))

/-- Every variant, of which the first follows one with the discriminant `before`, has one with the same
discriminant among `ws`, wherever that may be. -/
inductive RecastVariants : (exact : Bool) → (ws vs : Variants) → (before : Option Nat) →
    (vs.Val → ws.Val) → Prop
  | nil (x : Bool) (ws : Variants) (before : Option Nat) (f : Variants.nil.Val → ws.Val) :
    RecastVariants x ws .nil before f
  | cons {x : Bool} (d : Option Nat) {fs gs : Fields} {f : fs.Val → gs.Val} {vs ws : Variants}
    (before : Option Nat) {i : gs.Val → ws.Val} {g : vs.Val → ws.Val} : RecastFields x fs gs f →
    Numbered ws none (numbered before d) gs i → RecastVariants x ws vs (some (numbered before d)) g →
    RecastVariants x ws (.cons d fs vs) before
      (fun v => match v with | .inl a => i (f a) | .inr b => g b)

end

end Oct.Spec
