import Verif.Spec.Cost
import Verif.Spec.Accepts
import Verif.Model.Scarce
/-
What an allocator grants, and how much each part of a type takes at most.
-/
namespace Oct.Spec

/-- After `before`, the allocator grants all of these, one after the other. -/
def Granted (g : Allocator) : (before : List Nat) → List Nat → Prop
  | _, [] => True
  | before, n :: l => g before n = true ∧ Granted g (before ++ [n]) l

/-- An allocator that has so many octets, and never gets one back. -/
def budget (B : Nat) : Allocator := fun before n => decide (before.sum + n ≤ B)

/-- At most `a` octets are taken for each thing that is allocated alone, or at most `a` and `c` for each item, character
or entry of a buffer. -/
def withinHere (H : HeapOf) (a c : Nat) : Ty → Prop
  | .wrap .box t => H.size t ≤ a
  | .wrap .rc t | .wrap .arc t => H.counted (H.size t) ≤ a
  | .seq .linkedList t => H.node (H.size t) ≤ a
  | .seq .vec t | .seq .slice t => H.size t ≤ c
  | .hashMap k v => ∀ n, 0 < n → n ≤ 65535 → H.table (H.size (.tuple (.cons k (.cons v .nil)))) n ≤ a + c * n
  | .hashSet k => ∀ n, 0 < n → n ≤ 65535 → H.table (H.size k) n ≤ a + c * n
  | .str _ => 1 ≤ c
  | .cStr _ => 2 ≤ c
  | _ => True

/-- The same of all types that occur. -/
def WithinHeap (H : HeapOf) (a c : Nat) : Ty → Prop := Everywhere (withinHere H a c)

/-- Nothing of it is on the heap. -/
def inlineHere : Ty → Prop
  | .wrap .box _ | .wrap .rc _ | .wrap .arc _ | .seq _ _ | .hashMap _ _ | .hashSet _ | .str _ | .cStr _ => False
  | _ => True

/-- The same of all types that occur. -/
def Inline : Ty → Prop := Everywhere inlineHere

/-- So many octets are asked for, unless they are none. -/
def once (n : Nat) : List Nat := if n = 0 then [] else [n]

/-- What is asked for to decode these, one after the other, and `node` after each. -/
inductive AskEach {α : Type} (A : α → List Nat → Prop) (node : Nat) : List α → List Nat → Prop
  | nil : AskEach A node [] []
  | cons {x xs l l'} : A x l → AskEach A node xs l' → AskEach A node (x :: xs) (l ++ once node ++ l')

/-- What is asked for to decode two things. -/
def AskBoth (A B : List Nat → Prop) (l : List Nat) : Prop := ∃ a b, l = a ++ b ∧ A a ∧ B b

mutual

/-- What is asked for, in order, to decode a value. -/
def Asks (H : HeapOf) : (t : Ty) → t.Val → List Nat → Prop
  | .wrap .box t, v, l => AskBoth (Asks H t v) (· = once (H.size t)) l
  | .wrap .rc t, v, l => AskBoth (Asks H t v) (· = once (H.counted (H.size t))) l
  | .wrap .arc t, v, l => AskBoth (Asks H t v) (· = once (H.counted (H.size t))) l
  | .wrap _ t, v, l => Asks H t v l
  | .array t _, v, l => AskEach (Asks H t) 0 v.val l
  | .seq .linkedList t, v, l => AskEach (Asks H t) (H.node (H.size t)) v l
  | .seq _ t, v, l => AskBoth (· = once (List.length v * H.size t)) (AskEach (Asks H t) 0 v) l
  | .hashMap k v, m, l => ∃ ps : List (k.Val × v.Val), MapOf ps m.val ∧
      AskBoth (· = if ps.length = 0 then [] else once (H.table (H.size (.tuple (.cons k (.cons v .nil)))) ps.length))
        (AskEach (fun p => AskBoth (Asks H k p.1) (Asks H v p.2)) 0 ps) l
  | .hashSet k, s, l => ∃ ks : List k.Val, s.val = firsts ks ∧
      AskBoth (· = if ks.length = 0 then [] else once (H.table (H.size k) ks.length)) (AskEach (Asks H k) 0 ks) l
  | .option t, v, l =>
    match v with
    | none => l = []
    | some v => Asks H t v l
  | .result t e, v, l =>
    match v with
    | .ok v => Asks H t v l
    | .err v => Asks H e v l
  | .bound t, v, l =>
    match v with
    | .included v => Asks H t v l
    | .excluded v => Asks H t v l
    | .unbounded => l = []
  | .range t, v, l => AskBoth (Asks H t v.start) (Asks H t v.stop) l
  | .rangeInclusive t, v, l => AskBoth (Asks H t v.start) (Asks H t v.stop) l
  | .lock _ t, v, l => Asks H t v.val l
  | .refCell t, v, l => Asks H t v.val l
  | .str _, v, l => l = once v.val.length
  | .cStr _, v, l => l = once v.val.length ++ [v.val.length + 1]
  | .sizedSlice t n, v, l => ∃ items : List t.Val, items.length = n ∧ v.val <+: items ∧ AskEach (Asks H t) 0 items l
  | .tuple fs, v, l => AsksFields H fs v l
  | .struct fs, v, l => AsksFields H fs v l
  | .enum _ vs, v, l => AsksVariants H vs v l
  | _, _, l => l = []

/-- See `Asks`. -/
def AsksFields (H : HeapOf) : (fs : Fields) → fs.Val → List Nat → Prop
  | .nil, _, l => l = []
  | .cons t fs, v, l => AskBoth (Asks H t v.1) (AsksFields H fs v.2) l

/-- See `Asks`. -/
def AsksVariants (H : HeapOf) : (vs : Variants) → vs.Val → List Nat → Prop
  | .nil, v, _ => nomatch v
  | .cons _ fs vs, v, l =>
    match v with
    | .inl v => AsksFields H fs v l
    | .inr v => AsksVariants H vs v l

end

end Oct.Spec
