import Verif.Spec.Format
import Verif.Spec.Sizes
import Verif.Model.Place
/-
Parts of values.
-/
namespace Oct.Spec

/-- Does this to the item at an index, if there is one. -/
def atIndex {α β : Type} (l : List α) (i : Nat) (f : α → Option β) : Option β :=
  match l[i]? with
  | none => none
  | some a => f a

mutual

/-- The part at this place, if the value has it. -/
def part : {t u : Ty} → Place t u → t.Val → Option u.Val
  | _, _, .here, v => some v
  | _, _, .wrap p, v => part p v
  | _, _, .array i p, v => atIndex v.val i (part p)
  | _, _, .seq i p, v => atIndex v i (part p)
  | _, _, .sizedSlice i p, v => atIndex v.val i (part p)
  | _, _, .some p, v =>
    match v with
    | none => none
    | some v => part p v
  | _, _, .ok p, v =>
    match v with
    | .ok v => part p v
    | .err _ => none
  | _, _, .err p, v =>
    match v with
    | .ok _ => none
    | .err v => part p v
  | _, _, .included p, v =>
    match v with
    | .included v => part p v
    | _ => none
  | _, _, .excluded p, v =>
    match v with
    | .excluded v => part p v
    | _ => none
  | _, _, .start p, v => part p v.start
  | _, _, .stop p, v => part p v.stop
  | _, _, .first p, v => part p v.start
  | _, _, .last p, v => part p v.stop
  | _, _, .lock p, v => part p v.val
  | _, _, .refCell p, v => part p v.val
  | _, _, .tuple p, v => partIn p v
  | _, _, .struct p, v => partIn p v
  | _, _, .enum p, v => partOf p v

/-- See `part`. -/
def partIn : {fs : Fields} → {u : Ty} → PlaceIn fs u → fs.Val → Option u.Val
  | _, _, .head p, v => part p v.1
  | _, _, .tail p, v => partIn p v.2

/-- See `part`. -/
def partOf : {vs : Variants} → {u : Ty} → PlaceOf vs u → vs.Val → Option u.Val
  | _, _, .this p, v =>
    match v with
    | .inl v => partIn p v
    | .inr _ => none
  | _, _, .later p, v =>
    match v with
    | .inl _ => none
    | .inr v => partOf p v

end

mutual

/-- The value with another part at this place, if it has one there. -/
def withPart : {t u : Ty} → Place t u → u.Val → t.Val → t.Val
  | _, _, .here, x, _ => x
  | .wrap _ t, _, .wrap p, x, v => withPart (t := t) p x v
  | _, _, .array i p, x, v => ⟨v.val.modify i (withPart p x), by rw [List.length_modify]; exact v.property⟩
  | _, _, .seq i p, x, v => List.modify v i (withPart p x)
  | _, _, .sizedSlice i p, x, v => ⟨v.val.modify i (withPart p x), by rw [List.length_modify]; exact v.property⟩
  | _, _, .some p, x, v =>
    match v with
    | none => none
    | some v => some (withPart p x v)
  | _, _, .ok p, x, v =>
    match v with
    | .ok v => .ok (withPart p x v)
    | .err v => .err v
  | _, _, .err p, x, v =>
    match v with
    | .ok v => .ok v
    | .err v => .err (withPart p x v)
  | _, _, .included p, x, v =>
    match v with
    | .included v => .included (withPart p x v)
    | v => v
  | _, _, .excluded p, x, v =>
    match v with
    | .excluded v => .excluded (withPart p x v)
    | v => v
  | _, _, .start p, x, v => ⟨withPart p x v.start, v.stop⟩
  | _, _, .stop p, x, v => ⟨v.start, withPart p x v.stop⟩
  | _, _, .first p, x, v => ⟨withPart p x v.start, v.stop, v.exhausted⟩
  | _, _, .last p, x, v => ⟨v.start, withPart p x v.stop, v.exhausted⟩
  | _, _, .lock p, x, v => ⟨v.poisoned, withPart p x v.val⟩
  | _, _, .refCell p, x, v => ⟨v.mutBorrowed, withPart p x v.val⟩
  | _, _, .tuple p, x, v => withPartIn p x v
  | _, _, .struct p, x, v => withPartIn p x v
  | _, _, .enum p, x, v => withPartOf p x v

/-- See `withPart`. -/
def withPartIn : {fs : Fields} → {u : Ty} → PlaceIn fs u → u.Val → fs.Val → fs.Val
  | _, _, .head p, x, v => (withPart p x v.1, v.2)
  | _, _, .tail p, x, v => (v.1, withPartIn p x v.2)

/-- See `withPart`. -/
def withPartOf : {vs : Variants} → {u : Ty} → PlaceOf vs u → u.Val → vs.Val → vs.Val
  | _, _, .this p, x, v =>
    match v with
    | .inl v => .inl (withPartIn p x v)
    | .inr v => .inr v
  | _, _, .later p, x, v =>
    match v with
    | .inl v => .inl v
    | .inr v => .inr (withPartOf p x v)

end

/-- It takes as many octets as `MAX_ENCODED_SIZE` says. -/
def FillsMax (S : Ty → Nat) (t : Ty) (v : t.Val) : Prop := (wire t v).length = t.maxSize S

/-- The items before an index do, and this is true of the item there. -/
def FillsBefore (S : Ty → Nat) {t : Ty} (l : List t.Val) (i : Nat) (f : t.Val → Prop) : Prop :=
  (∀ y ∈ l.take i, FillsMax S t y) ∧ ∀ y, l[i]? = some y → f y

mutual

/-- All that is before the place takes as many octets as `MAX_ENCODED_SIZE` says. -/
def Steady (S : Ty → Nat) : {t u : Ty} → Place t u → t.Val → Prop
  | _, _, .here, _ => True
  | _, _, .wrap p, v => Steady S p v
  | _, _, .array i p, v => FillsBefore S v.val i (Steady S p)
  | _, _, .seq i p, v => FillsBefore S v i (Steady S p)
  | _, _, .sizedSlice i p, v => FillsBefore S v.val i (Steady S p)
  | _, _, .some p, v =>
    match v with
    | none => True
    | some v => Steady S p v
  | _, _, .ok p, v =>
    match v with
    | .ok v => Steady S p v
    | .err _ => True
  | _, _, .err p, v =>
    match v with
    | .ok _ => True
    | .err v => Steady S p v
  | _, _, .included p, v =>
    match v with
    | .included v => Steady S p v
    | _ => True
  | _, _, .excluded p, v =>
    match v with
    | .excluded v => Steady S p v
    | _ => True
  | _, _, .start p, v => Steady S p v.start
  | .range t, _, .stop p, v => FillsMax S t v.start ∧ Steady S p v.stop
  | _, _, .first p, v => Steady S p v.start
  | .rangeInclusive t, _, .last p, v => FillsMax S t v.start ∧ Steady S p v.stop
  | _, _, .lock p, v => Steady S p v.val
  | _, _, .refCell p, v => Steady S p v.val
  | _, _, .tuple p, v => SteadyIn S p v
  | _, _, .struct p, v => SteadyIn S p v
  | _, _, .enum p, v => SteadyOf S p v

/-- See `Steady`. -/
def SteadyIn (S : Ty → Nat) : {fs : Fields} → {u : Ty} → PlaceIn fs u → fs.Val → Prop
  | _, _, .head p, v => Steady S p v.1
  | .cons t _, _, .tail p, v => FillsMax S t v.1 ∧ SteadyIn S p v.2

/-- See `Steady`. -/
def SteadyOf (S : Ty → Nat) : {vs : Variants} → {u : Ty} → PlaceOf vs u → vs.Val → Prop
  | _, _, .this p, v =>
    match v with
    | .inl v => SteadyIn S p v
    | .inr _ => True
  | _, _, .later p, v =>
    match v with
    | .inl _ => True
    | .inr v => SteadyOf S p v

end

mutual

/-- All that can be before the place is of fixed size. -/
def FixedTo : {t u : Ty} → Place t u → Prop
  | _, _, .here => True
  | _, _, .wrap p => FixedTo p
  | .array t _, _, .array i p => (i = 0 ∨ fixedSize t ≠ none) ∧ FixedTo p
  | .seq _ t, _, .seq i p => (i = 0 ∨ fixedSize t ≠ none) ∧ FixedTo p
  | .sizedSlice t _, _, .sizedSlice i p => (i = 0 ∨ fixedSize t ≠ none) ∧ FixedTo p
  | _, _, .some p => FixedTo p
  | _, _, .ok p => FixedTo p
  | _, _, .err p => FixedTo p
  | _, _, .included p => FixedTo p
  | _, _, .excluded p => FixedTo p
  | _, _, .start p => FixedTo p
  | .range t, _, .stop p => fixedSize t ≠ none ∧ FixedTo p
  | _, _, .first p => FixedTo p
  | .rangeInclusive t, _, .last p => fixedSize t ≠ none ∧ FixedTo p
  | _, _, .lock p => FixedTo p
  | _, _, .refCell p => FixedTo p
  | _, _, .tuple p => FixedToIn p
  | _, _, .struct p => FixedToIn p
  | _, _, .enum p => FixedToOf p

/-- See `FixedTo`. -/
def FixedToIn : {fs : Fields} → {u : Ty} → PlaceIn fs u → Prop
  | _, _, .head p => FixedTo p
  | .cons t _, _, .tail p => fixedSize t ≠ none ∧ FixedToIn p

/-- See `FixedTo`. -/
def FixedToOf : {vs : Variants} → {u : Ty} → PlaceOf vs u → Prop
  | _, _, .this p => FixedToIn p
  | _, _, .later p => FixedToOf p

end

end Oct.Spec
