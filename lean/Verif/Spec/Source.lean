import Verif.Model.Source
/- What is taken out of iterators. -/
namespace Oct.Spec
open Oct

/-- Calling `next` as often as `l` is long gives the items of `l`, and leads from the one state to the
other. -/
inductive Gave {σ α : Type} (next : Source σ α) : σ → List α → σ → Prop where
  | nil (s : σ) : Gave next s [] s
  | cons {s s1 s2 : σ} {a : α} {l : List α} : next s = (.ok (some a), s1) → Gave next s1 l s2 →
    Gave next s (a :: l) s2

end Oct.Spec
