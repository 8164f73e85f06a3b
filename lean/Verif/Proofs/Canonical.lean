import Verif.Proofs.AcceptsTy
import Verif.Spec.Canonical
/- What is accepted is what encoding produces, up to a relation on octet strings. -/
namespace Oct
open Spec
set_option linter.unusedVariables false
set_option linter.unusedSectionVars false

/-- A relation on octet strings that holds of equal ones and is respected by concatenation. -/
structure Likeness (Q : List Byte → List Byte → Prop) : Prop where
  refl : ∀ a, Q a a
  append : ∀ {a b c d}, Q a b → Q c d → Q (a ++ c) (b ++ d)

variable {Q : List Byte → List Byte → Prop} {P : Ty → Prop} {α : Type}

theorem Likeness.each (hQ : Likeness Q) {A : List Byte → α → Prop} {w : α → List Byte}
    (h : ∀ b a, A b a → Q b (w a)) {bs : List Byte} {l : List α} (hE : Each A bs l) :
    Q bs (l.flatMap w) := by
  induction hE with
  | nil => exact hQ.refl []
  | cons hA _ ih => exact hQ.append (h _ _ hA) ih

section
variable (hQ : Likeness Q)
  (hL : ∀ t, P t → Loose t → ∀ a b, a.length = b.length → Q a b) (hU : ∀ t, P t → ¬ Unbalanced t)
include hQ hL hU

mutual

theorem accepts_like : (t : Ty) → Everywhere P t → (bs : List Byte) → (v : t.Val) →
    Accepts t bs v → Q bs (wire t v)
  | .num k, _, bs, v, h => by rw [show bs = wire (.num k) v from h]; exact hQ.refl _
  | .bool, hp, bs, v, h => by
    obtain ⟨b, rfl, _⟩ := h
    exact hL .bool hp trivial _ _ rfl
  | .char, _, bs, v, h => by rw [show bs = wire .char v from h]; exact hQ.refl _
  | .usize, _, bs, v, h => by rw [show bs = wire .usize v from h.2]; exact hQ.refl _
  | .isize, _, bs, v, h => by rw [show bs = wire .isize v from h.2]; exact hQ.refl _
  | .nonZero r, _, bs, v, h => by rw [show bs = wire (.nonZero r) v from h.2]; exact hQ.refl _
  | .unit k, _, bs, v, h => by rw [show bs = wire (.unit k) v from h]; exact hQ.refl _
  | .infallible, _, bs, v, h => nomatch v
  | .wrap _ t, hp, bs, v, h => accepts_like t hp.2 bs v h
  | .array t n, hp, bs, v, h => hQ.each (accepts_like t hp.2) h
  | .seq k t, hp, bs, v, h => by
    obtain ⟨r, _, rfl, hE⟩ := h
    exact hQ.append (hQ.refl _) (hQ.each (accepts_like t hp.2) hE)
  | .hashMap k v, hp, bs, m, h => absurd trivial (hU (.hashMap k v) hp.1)
  | .hashSet k, hp, bs, m, h => absurd trivial (hU (.hashSet k) hp.1)
  | .option t, hp, bs, none, h => by
    rw [show bs = [0] from h]; exact hQ.refl _
  | .option t, hp, bs, some v, h => by
    obtain ⟨b, r, _, rfl, hA⟩ := h
    exact hQ.append (hL (.option t) hp.1 trivial [b] [1] rfl) (accepts_like t hp.2 r v hA)
  | .result t e, hp, bs, .ok v, h => by
    obtain ⟨r, rfl, hA⟩ := h
    exact hQ.append (hQ.refl [0]) (accepts_like t hp.2.1 r v hA)
  | .result t e, hp, bs, .err v, h => by
    obtain ⟨b, r, _, rfl, hA⟩ := h
    exact hQ.append (hL (.result t e) hp.1 trivial [b] [1] rfl) (accepts_like e hp.2.2 r v hA)
  | .bound t, hp, bs, .included v, h => by
    obtain ⟨r, rfl, hA⟩ := h
    exact hQ.append (hQ.refl [0]) (accepts_like t hp.2 r v hA)
  | .bound t, hp, bs, .excluded v, h => by
    obtain ⟨r, rfl, hA⟩ := h
    exact hQ.append (hQ.refl [1]) (accepts_like t hp.2 r v hA)
  | .bound t, hp, bs, .unbounded, h => by
    rw [show bs = [2] from h]; exact hQ.refl _
  | .range t, hp, bs, v, h => by
    obtain ⟨b1, b2, rfl, h1, h2⟩ := h
    exact hQ.append (accepts_like t hp.2 _ _ h1) (accepts_like t hp.2 _ _ h2)
  | .rangeInclusive t, hp, bs, v, h => by
    obtain ⟨_, b1, b2, rfl, h1, h2⟩ := h
    exact hQ.append (accepts_like t hp.2 _ _ h1) (accepts_like t hp.2 _ _ h2)
  | .lock _ t, hp, bs, v, h => accepts_like t hp.2 bs v.val h.2
  | .refCell t, hp, bs, v, h => accepts_like t hp.2 bs v.val h.2
  | .duration, hp, bs, v, h => by
    obtain ⟨s, n, _, _, rfl, _⟩ := h
    exact hL .duration hp trivial _ _ (by simp [wire, leBytes_length])
  | .systemTime p, _, bs, v, h => by
    obtain ⟨x, _, rfl, hv⟩ := h
    have : wire (.systemTime p) v = leBytesInt 8 x := by
      show leBytesInt 8 (v.val.tdiv nanosPerSec) = _
      rw [hv, Int.mul_tdiv_cancel _ (by decide)]
    rw [this]; exact hQ.refl _
  | .ipv4, _, bs, v, h => by rw [show bs = wire .ipv4 v from h]; exact hQ.refl _
  | .ipv6, _, bs, v, h => by rw [show bs = wire .ipv6 v from h]; exact hQ.refl _
  | .ipAddr, _, bs, .v4 a, h => by rw [show bs = wire .ipAddr (.v4 a) from h]; exact hQ.refl _
  | .ipAddr, _, bs, .v6 a, h => by rw [show bs = wire .ipAddr (.v6 a) from h]; exact hQ.refl _
  | .socketAddrV4, _, bs, v, h => by rw [show bs = wire .socketAddrV4 v from h]; exact hQ.refl _
  | .socketAddrV6, _, bs, v, h => by rw [show bs = wire .socketAddrV6 v from h]; exact hQ.refl _
  | .socketAddr, _, bs, .v4 a, h => by
    rw [show bs = wire .socketAddr (.v4 a) from h]; exact hQ.refl _
  | .socketAddr, _, bs, .v6 a, h => by
    rw [show bs = wire .socketAddr (.v6 a) from h]; exact hQ.refl _
  | .str k, _, bs, v, h => by rw [show bs = wire (.str k) v from h.2]; exact hQ.refl _
  | .cStr k, _, bs, v, h => by rw [show bs = wire (.cStr k) v from h.2]; exact hQ.refl _
  | .sizedStr n, _, bs, v, h => by rw [show bs = wire (.sizedStr n) v from h.2]; exact hQ.refl _
  | .sizedSlice t n, hp, bs, v, h => absurd trivial (hU (.sizedSlice t n) hp.1)
  | .tuple fs, hp, bs, v, h => acceptsFields_like fs hp.2 bs v h
  | .struct fs, hp, bs, v, h => acceptsFields_like fs hp.2 bs v h
  | .enum r vs, hp, bs, v, h => acceptsVariants_like vs r (explicitDiscs vs) 0 hp.2 bs v h

theorem acceptsFields_like : (fs : Fields) → EverywhereFields P fs → (bs : List Byte) →
    (v : fs.Val) → AcceptsFields fs bs v → Q bs (wireFields fs v)
  | .nil, _, bs, v, h => by rw [show bs = [] from h]; exact hQ.refl _
  | .cons t fs, hp, bs, v, h => by
    obtain ⟨b1, b2, rfl, h1, h2⟩ := h
    exact hQ.append (accepts_like t hp.1 _ _ h1) (acceptsFields_like fs hp.2 _ _ h2)

theorem acceptsVariants_like : (vs : Variants) → (r : Repr) → (ex : List (Option Nat)) → (j : Nat) →
    EverywhereVariants P vs → (bs : List Byte) → (v : vs.Val) → AcceptsVariants r ex vs j bs v →
    Q bs (wireVariants r ex vs j v)
  | .nil, _, _, _, _, _, v, _ => nomatch v
  | .cons d fs vs, r, ex, j, hp, bs, .inl v, h => by
    obtain ⟨_, w, rfl, hA⟩ := h
    exact hQ.append (hQ.refl _) (acceptsFields_like fs hp.1 w v hA)
  | .cons d fs vs, r, ex, j, hp, bs, .inr v, h => acceptsVariants_like vs r ex (j + 1) hp.2 bs v h

end

end

theorem likeness_eq : Likeness Eq := ⟨fun _ => rfl, fun h h' => by rw [h, h']⟩

theorem likeness_length : Likeness (fun a b => a.length = b.length) :=
  ⟨fun _ => rfl, fun h h' => by rw [List.length_append, List.length_append, h, h']⟩

end Oct
