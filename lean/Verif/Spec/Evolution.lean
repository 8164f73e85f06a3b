import Verif.Model.Decode
import Verif.Spec.Derived
/-
Types that have grown: enumerations to which variants were appended, anywhere inside a type.
-/
namespace Oct.Spec
open Oct

mutual

/-- `u` is `t`, save that variants may have been appended to the enumerations in it; a value of `t` is
taken for the value of `u` that the function gives. Hash maps may have grown values but not grown
keys, hash sets no grown items. -/
inductive Grows : (t u : Ty) → (t.Val → u.Val) → Prop
  | same (t : Ty) : Grows t t id
  | wrap (w : Wrap) {t u : Ty} {f : t.Val → u.Val} : Grows t u f → Grows (.wrap w t) (.wrap w u) f
  | array (n : Nat) {t u : Ty} {f : t.Val → u.Val} : Grows t u f →
    Grows (.array t n) (.array u n) (fun v => ⟨v.1.map f, (List.length_map _).trans v.2⟩)
  | seq (k : SeqKind) {t u : Ty} {f : t.Val → u.Val} : Grows t u f →
    Grows (.seq k t) (.seq k u) (List.map f)
  | hashMap (k : Ty) {t u : Ty} {f : t.Val → u.Val} : Grows t u f →
    Grows (.hashMap k t) (.hashMap k u) (fun m => ⟨m.1.map (fun p => (p.1, f p.2)), by
      have h := m.2
      rw [List.map_map]
      exact h⟩)
  | option {t u : Ty} {f : t.Val → u.Val} : Grows t u f →
    Grows (.option t) (.option u) (Option.map f)
  | result {t u t' u' : Ty} {f : t.Val → u.Val} {f' : t'.Val → u'.Val} :
    Grows t u f → Grows t' u' f' →
    Grows (.result t t') (.result u u') (fun v => match v with | .ok a => .ok (f a) | .err b => .err (f' b))
  | bound {t u : Ty} {f : t.Val → u.Val} : Grows t u f →
    Grows (.bound t) (.bound u) (fun v => match v with
      | .included a => .included (f a) | .excluded a => .excluded (f a) | .unbounded => .unbounded)
  | range {t u : Ty} {f : t.Val → u.Val} : Grows t u f →
    Grows (.range t) (.range u) (fun v => ⟨f v.start, f v.stop⟩)
  | rangeInclusive {t u : Ty} {f : t.Val → u.Val} : Grows t u f →
    Grows (.rangeInclusive t) (.rangeInclusive u) (fun v => ⟨f v.start, f v.stop, v.exhausted⟩)
  | lock (k : LockKind) {t u : Ty} {f : t.Val → u.Val} : Grows t u f →
    Grows (.lock k t) (.lock k u) (fun v => ⟨v.poisoned, f v.val⟩)
  | refCell {t u : Ty} {f : t.Val → u.Val} : Grows t u f →
    Grows (.refCell t) (.refCell u) (fun v => ⟨v.mutBorrowed, f v.val⟩)
  | sizedSlice (n : Nat) {t u : Ty} {f : t.Val → u.Val} : Grows t u f →
    Grows (.sizedSlice t n) (.sizedSlice u n)
      (fun v => ⟨v.1.map f, Nat.le_trans (Nat.le_of_eq (List.length_map _)) v.2⟩)
  | tuple {fs gs : Fields} {f : fs.Val → gs.Val} : GrowsFields fs gs f →
    Grows (.tuple fs) (.tuple gs) f
  | struct {fs gs : Fields} {f : fs.Val → gs.Val} : GrowsFields fs gs f →
    Grows (.struct fs) (.struct gs) f
  | enum (r : Repr) {vs ws : Variants} {f : vs.Val → ws.Val} : GrowsVariants vs ws f →
    Grows (.enum r vs) (.enum r ws) f

/-- Field by field. -/
inductive GrowsFields : (fs gs : Fields) → (fs.Val → gs.Val) → Prop
  | nil : GrowsFields .nil .nil id
  | cons {t u : Ty} {f : t.Val → u.Val} {fs gs : Fields} {g : fs.Val → gs.Val} :
    Grows t u f → GrowsFields fs gs g →
    GrowsFields (.cons t fs) (.cons u gs) (fun v => (f v.1, g v.2))

/-- The variants there were, with the discriminants they were given, and any others behind them. -/
inductive GrowsVariants : (vs ws : Variants) → (vs.Val → ws.Val) → Prop
  | append (ws : Variants) (f : Variants.nil.Val → ws.Val) : GrowsVariants .nil ws f
  | cons (d : Option Nat) {fs gs : Fields} {f : fs.Val → gs.Val} {vs ws : Variants}
    {g : vs.Val → ws.Val} : GrowsFields fs gs f → GrowsVariants vs ws g →
    GrowsVariants (.cons d fs vs) (.cons d gs ws)
      (fun v => match v with | .inl a => .inl (f a) | .inr b => .inr (g b))

end

/-- The error says that a discriminant is not assigned. -/
def Unknown : DecErr → Prop
  | .unassigned _ => True
  | .gUnassigned _ => True
  | .badLength e => Unknown e
  | .badItem e => Unknown e
  | .item _ e => Unknown e
  | .badField e => Unknown e
  | _ => False

end Oct.Spec
