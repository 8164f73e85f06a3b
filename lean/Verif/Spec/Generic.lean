import Verif.Model.Generic
/-
Which arguments meet the bounds of a generic item, and where parameters occur.
-/
namespace Oct.Spec
open Oct

/-- The arguments `σ` meet the bounds; `ε j` is the error type that goes by the name `j`. -/
structure MeetsEnc (B : EncBounds) (σ : Nat → Ty) (ε : Nat → EncTy) : Prop where
  named : ∀ i j, B.encode i = some (.inl j) → (σ i).encErr = some (ε j)
  known : ∀ i e, B.encode i = some (.inr e) → (σ i).encErr = some e
  into : ∀ j, B.into j = true → (ε j).intoGeneric = true

/-- Types of values that may be anywhere: not `[T]`, `str` or `CStr`. -/
def IsSized : Ty → Prop
  | .seq .slice _ => False
  | .str .str => False
  | .cStr .cStr => False
  | _ => True

/-- The same for `Decode`. -/
structure MeetsDec (B : DecBounds) (σ : Nat → Ty) (ε : Nat → DecTy) : Prop where
  sized : ∀ i, IsSized (σ i)
  named : ∀ i j, B.decode i = some (.inl j) → (σ i).decErr = some (ε j)
  known : ∀ i e, B.decode i = some (.inr e) → (σ i).decErr = some e
  into : ∀ j, B.into j = true → (ε j).intoGeneric = true

mutual

/-- The parameter occurs in the type, other than in `PhantomData`. -/
def Mentions (i : Nat) : GTy → Prop
  | .param k => k = i
  | .closed _ => False
  | .phantom _ => False
  | .wrap _ t => Mentions i t
  | .array t _ => Mentions i t
  | .seq _ t => Mentions i t
  | .hashMap k v => Mentions i k ∨ Mentions i v
  | .hashSet k => Mentions i k
  | .option t => Mentions i t
  | .result t e => Mentions i t ∨ Mentions i e
  | .bound t => Mentions i t
  | .range t => Mentions i t
  | .rangeInclusive t => Mentions i t
  | .lock _ t => Mentions i t
  | .refCell t => Mentions i t
  | .sizedSlice t _ => Mentions i t
  | .tuple fs => MentionsFields i fs

def MentionsFields (i : Nat) : GFields → Prop
  | .nil => False
  | .cons t fs => Mentions i t ∨ MentionsFields i fs

end

def MentionsVariants (i : Nat) : GVariants → Prop
  | .nil => False
  | .cons _ fs vs => MentionsFields i fs ∨ MentionsVariants i vs

def MentionsItem (i : Nat) : GItem → Prop
  | .struct fs => MentionsFields i fs
  | .enum _ vs => MentionsVariants i vs

mutual

/-- The type with its parameters replaced by arguments, and nothing else changed; `PhantomData<T>` has
no values that differ for different `T`, so it is one type. -/
inductive Instance (σ : Nat → Ty) : GTy → Ty → Prop where
  | param (i : Nat) : Instance σ (.param i) (σ i)
  | closed (t : Ty) : Instance σ (.closed t) t
  | phantom (t : GTy) : Instance σ (.phantom t) (.unit .phantomData)
  | wrap {t t'} (w : Wrap) : Instance σ t t' → Instance σ (.wrap w t) (.wrap w t')
  | array {t t'} (n : Nat) : Instance σ t t' → Instance σ (.array t n) (.array t' n)
  | seq {t t'} (k : SeqKind) : Instance σ t t' → Instance σ (.seq k t) (.seq k t')
  | hashMap {k k' v v'} : Instance σ k k' → Instance σ v v' → Instance σ (.hashMap k v) (.hashMap k' v')
  | hashSet {k k'} : Instance σ k k' → Instance σ (.hashSet k) (.hashSet k')
  | option {t t'} : Instance σ t t' → Instance σ (.option t) (.option t')
  | result {t t' e e'} : Instance σ t t' → Instance σ e e' → Instance σ (.result t e) (.result t' e')
  | bound {t t'} : Instance σ t t' → Instance σ (.bound t) (.bound t')
  | range {t t'} : Instance σ t t' → Instance σ (.range t) (.range t')
  | rangeInclusive {t t'} : Instance σ t t' → Instance σ (.rangeInclusive t) (.rangeInclusive t')
  | lock {t t'} (k : LockKind) : Instance σ t t' → Instance σ (.lock k t) (.lock k t')
  | refCell {t t'} : Instance σ t t' → Instance σ (.refCell t) (.refCell t')
  | sizedSlice {t t'} (n : Nat) : Instance σ t t' → Instance σ (.sizedSlice t n) (.sizedSlice t' n)
  | tuple {fs fs'} : InstanceFields σ fs fs' → Instance σ (.tuple fs) (.tuple fs')

inductive InstanceFields (σ : Nat → Ty) : GFields → Fields → Prop where
  | nil : InstanceFields σ .nil .nil
  | cons {t t' fs fs'} : Instance σ t t' → InstanceFields σ fs fs' →
      InstanceFields σ (.cons t fs) (.cons t' fs')

end

inductive InstanceVariants (σ : Nat → Ty) : GVariants → Variants → Prop where
  | nil : InstanceVariants σ .nil .nil
  | cons {fs fs' vs vs'} (d : Option Nat) : InstanceFields σ fs fs' → InstanceVariants σ vs vs' →
      InstanceVariants σ (.cons d fs vs) (.cons d fs' vs')

/-- The item with its parameters replaced. -/
inductive InstanceItem (σ : Nat → Ty) : GItem → Ty → Prop where
  | struct {fs fs'} : InstanceFields σ fs fs' → InstanceItem σ (.struct fs) (.struct fs')
  | enum {vs vs'} (r : Repr) : InstanceVariants σ vs vs' → InstanceItem σ (.enum r vs) (.enum r vs')

end Oct.Spec
