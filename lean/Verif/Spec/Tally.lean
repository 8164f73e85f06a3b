import Verif.Spec.Cost
import Verif.Spec.Graph
import Verif.Model.Tally
/-
What encoding may cost, by type.
-/
namespace Oct.Spec

/-- The number of octets written between two states of an output. -/
def written (o o' : Output) : Nat := o'.position - o.position

/-- Whether the encoding came to its end. -/
def finished : Res EncErr Unit → Bool
  | .ok _ => true
  | _ => false

/-- Calls and writes, priced. -/
def priced (p : Prices) (calls writes : Nat) : Nat := calls * p.call + writes * p.write

/-- A sum. -/
def total {α : Type} (f : α → Nat) (l : List α) : Nat := (l.map f).sum

mutual

/-- The work that encoding a value takes: calls and writes by the kind of type, and the work for what is
inside. -/
def work (p : Prices) : (t : Ty) → t.Val → Nat
  | .num _, _ => priced p 1 1
  | .bool, _ | .char, _ | .usize, _ | .isize, _ => priced p 2 1
  | .nonZero (.int _), _ => priced p 2 1
  | .nonZero .usize, _ | .nonZero .isize, _ => priced p 3 1
  | .unit _, _ => priced p 1 0
  | .infallible, _ => 0
  | .wrap _ t, v => priced p 1 0 + work p t v
  | .array t _, v => priced p 1 0 + total (work p t) v.val
  | .seq .vec t, v => priced p 4 1 + total (work p t) v
  | .seq _ t, v => priced p 3 1 + total (work p t) v
  | .hashMap k v, m => priced p 1 0 + total (fun e => work p k e.1 + work p v e.2) m.val
  | .hashSet k, s => priced p 1 0 + total (work p k) s.val
  | .option t, v =>
    priced p 3 1 + match v with
    | none => 0
    | some v => work p t v
  | .result t e, v =>
    priced p 3 1 + match v with
    | .ok v => work p t v
    | .err v => work p e v
  | .bound t, v =>
    priced p 2 1 + match v with
    | .included v | .excluded v => work p t v
    | .unbounded => 0
  | .range t, v => priced p 1 0 + (work p t v.start + work p t v.stop)
  | .rangeInclusive t, v => priced p 1 0 + (work p t v.start + work p t v.stop)
  | .lock _ t, v => priced p 1 0 + work p t v.val
  | .refCell t, v => priced p 1 0 + work p t v.val
  | .duration, _ => priced p 3 2
  | .systemTime _, _ | .ipv4, _ | .ipv6, _ => priced p 2 1
  | .ipAddr, _ | .socketAddrV4, _ => priced p 4 2
  | .socketAddrV6, _ => priced p 6 4
  | .socketAddr, v =>
    match v with
    | .v4 _ => priced p 6 3
    | .v6 _ => priced p 8 5
  | .str .str, v => priced p (4 + v.val.length) (1 + v.val.length)
  | .str .string, v => priced p (5 + v.val.length) (1 + v.val.length)
  | .cStr .cStr, v => priced p (4 + v.val.length) (1 + v.val.length)
  | .cStr .cString, v => priced p (5 + v.val.length) (1 + v.val.length)
  | .sizedStr _, v => priced p (5 + v.val.length) (1 + v.val.length)
  | .sizedSlice t _, v => priced p 4 1 + total (work p t) v.val
  | .tuple fs, v => priced p 1 0 + workFields p fs v
  | .struct fs, v => priced p 1 0 + workFields p fs v
  | .enum (.int _) vs, v => priced p 2 1 + workVariants p vs v
  | .enum .usize vs, v | .enum .isize vs, v => priced p 3 1 + workVariants p vs v

/-- See `work`. -/
def workFields (p : Prices) : (fs : Fields) → fs.Val → Nat
  | .nil, _ => 0
  | .cons t fs, v => work p t v.1 + workFields p fs v.2

/-- See `work`. -/
def workVariants (p : Prices) : (vs : Variants) → vs.Val → Nat
  | .nil, v => nomatch v
  | .cons _ fs vs, v =>
    match v with
    | .inl v => workFields p fs v
    | .inr v => workVariants p vs v

end

/-- Each item of a collection of any length writes an octet. -/
def Thrifty (t : Ty) : Prop :=
  Everywhere (fun
    | .seq _ t => EmitsSome t
    | .hashMap k v => EmitsSome k ∨ EmitsSome v
    | .hashSet k => EmitsSome k
    | _ => True) t

end Oct.Spec
