import Verif.Spec.Cost
import Verif.Proofs.Recursive
import Verif.Proofs.DecInv
/-
What decoding costs: it decodes as `decode` does, and costs no more than its rate for each octet.
-/
namespace Oct
open Spec
set_option linter.unusedVariables false
variable {α β γ : Type}

/-- The account does not change what is decoded. -/
def SameC (m : Cost α) (d : Dec α) : Prop := ∀ I, (m I).1 = d I

namespace SameC

theorem of (c : Nat) (d : Dec α) : SameC (Cost.of c d) d := fun _ => rfl

theorem mapErr {m : Cost α} {d : Dec α} (h : SameC m d) (g : DecErr → DecErr) :
    SameC (m.mapErr g) (d.mapErr g) := fun I => by
  unfold Cost.mapErr Dec.mapErr
  simp only
  rw [h I]

theorem bind {m : Cost α} {d : Dec α} {f : α → Cost β} {g : α → Dec β}
    (h : SameC m d) (hf : ∀ a, SameC (f a) (g a)) : SameC (m.bind f) (d >>= g) := by
  intro I
  show _ = Dec.bind d g I
  unfold Cost.bind Dec.bind
  have h1 := h I
  generalize m I = q at h1 ⊢
  obtain ⟨⟨r, I1⟩, c⟩ := q
  rw [← h1]
  cases r with
  | ok a => exact hf a I1
  | err e => rfl
  | panic p => rfl
  | ub u => rfl

theorem map {m : Cost α} {d : Dec α} (h : SameC m d) (f : α → β) :
    SameC (m.map f) (d >>= fun a => pure (f a)) := h.bind fun _ => .of _ _

theorem tick (c : Nat) : SameC (Cost.tick c) (pure ()) := .of _ _

/-- Costs come before anything else. -/
theorem after {m : Cost α} {d : Dec α} (h : SameC m d) (c : Nat) :
    SameC ((Cost.tick c).bind fun _ => m) d :=
  ((SameC.tick c).bind fun _ => h :)

/-- Costs come after everything else. -/
theorem before {m : Cost α} {d : Dec α} (h : SameC m d) (c : α → Nat) :
    SameC (m.bind fun a => Cost.of (c a) (pure a)) d := by
  intro I
  refine ((h.bind (g := pure) fun a => .of (c a) _) I).trans ?_
  show Dec.bind d Dec.pure I = _
  unfold Dec.bind Dec.pure
  rcases d I with ⟨r, I1⟩
  cases r <;> rfl

theorem ite {c : Prop} [Decidable c] {m m' : Cost α} {d d' : Dec α} (h : SameC m d)
    (h' : SameC m' d') : SameC (if c then m else m') (if c then d else d') := by
  split
  · exact h
  · exact h'

end SameC

theorem costItems_same {m : Cost α} {d : Dec α} (h : SameC m d) (node : Nat) :
    ∀ n i, SameC (costItems node m n i) (decItems d n i)
  | 0, _ => .of _ _
  | n + 1, i => (h.mapErr _).bind fun v => ((costItems_same h node n (i + 1)).map _).after _

theorem costVec_same {m : Cost α} {d : Dec α} (w : Weights) (h : SameC m d) :
    SameC (costVec w m) (decSeq d) :=
  (SameC.of _ decUsize).bind fun len => ((costItems_same h 0 len 0).map _).after _

theorem costList_same {m : Cost α} {d : Dec α} (w : Weights) (h : SameC m d) :
    SameC (costList w m) (decSeq d) :=
  (SameC.of _ decUsize).bind fun len => (costItems_same h _ len 0).map _

theorem costSized_same {m : Cost α} {d : Dec α} (w : Weights) (h : SameC m d) (n : Nat) :
    SameC (costSized w m n) (decSizedSlice d n) :=
  (SameC.of _ decUsize).bind fun len => .ite (.of _ _) ((costItems_same h 0 n 0).map _)

theorem costMapLoop_same [DecidableEq α] {mK : Cost α} {dK : Dec α} {mV : Cost β} {dV : Dec β}
    (hK : SameC mK dK) (hV : SameC mV dV) : ∀ n i m,
    SameC (costMapLoop mK mV n i m) (decMapLoop dK dV n i m)
  | 0, _, _ => .of _ _
  | n + 1, i, m => (hK.mapErr _).bind fun k => (hV.mapErr _).bind fun v => costMapLoop_same hK hV n _ _

theorem costHashMap_same [DecidableEq α] {mK : Cost α} {dK : Dec α} {mV : Cost β} {dV : Dec β}
    (w : Weights) (hK : SameC mK dK) (hV : SameC mV dV) :
    SameC (costHashMap w mK mV) (decHashMap dK dV) :=
  (SameC.of _ decUsize).bind fun len => (costMapLoop_same hK hV len 0 _).after _

theorem costSetLoop_same [DecidableEq α] {mK : Cost α} {dK : Dec α} (hK : SameC mK dK) :
    ∀ n i s, SameC (costSetLoop mK n i s) (decSetLoop dK n i s)
  | 0, _, _ => .of _ _
  | n + 1, i, s => (hK.mapErr _).bind fun k => costSetLoop_same hK n _ _

theorem costHashSet_same [DecidableEq α] {mK : Cost α} {dK : Dec α} (w : Weights)
    (hK : SameC mK dK) : SameC (costHashSet w mK) (decHashSet dK) :=
  (SameC.of _ decUsize).bind fun len => (costSetLoop_same hK len 0 _).after _

mutual

theorem Ty.cost_same (w : Weights) : (t : Ty) → SameC (t.cost w) t.decode
  | .num k => .of _ _
  | .bool => .of _ _
  | .char => .of _ _
  | .usize => .of _ _
  | .isize => .of _ _
  | .nonZero r => .of _ _
  | .unit _ => .of _ _
  | .infallible => .of _ _
  | .wrap k t => ((t.cost_same w).before _).after _
  | .array t n => (costItems_same (t.cost_same w) 0 n 0).after _
  | .seq .linkedList t => costList_same w (t.cost_same w)
  | .seq .vec t => costVec_same w (t.cost_same w)
  | .seq .slice t => costVec_same w (t.cost_same w)
  | .hashMap k v => @costHashMap_same _ _ k.decEq _ _ _ _ w (k.cost_same w) (v.cost_same w)
  | .hashSet k => @costHashSet_same _ k.decEq _ _ w (k.cost_same w)
  | .option t => (SameC.of _ decBool).bind fun _ => .ite ((t.cost_same w).map _) (.of _ _)
  | .result t e => (SameC.of _ decBool).bind fun _ =>
      .ite (((e.cost_same w).mapErr _).map _) (((t.cost_same w).mapErr _).map _)
  | .bound t => (SameC.of _ decU8).bind fun _ =>
      .ite (((t.cost_same w).mapErr _).map _) (.ite (((t.cost_same w).mapErr _).map _)
        (.ite (.of _ _) (.of _ _)))
  | .range t => ((t.cost_same w).bind fun _ => (t.cost_same w).map _).after _
  | .rangeInclusive t => ((t.cost_same w).bind fun _ => (t.cost_same w).map _).after _
  | .lock _ t => ((t.cost_same w).map _).after _
  | .refCell t => ((t.cost_same w).map _).after _
  | .duration => .of _ _
  | .systemTime p => .of _ _
  | .ipv4 => .of _ _
  | .ipv6 => .of _ _
  | .ipAddr => .of _ _
  | .socketAddrV4 => .of _ _
  | .socketAddrV6 => .of _ _
  | .socketAddr => .of _ _
  | .str _ => (SameC.of _ decString).before _
  | .cStr _ => (SameC.of _ decCString).before _
  | .sizedStr n => .of _ _
  | .sizedSlice t n => costSized_same w (t.cost_same w) n
  | .tuple fs => (fs.cost_same w _).after _
  | .struct fs => (fs.cost_same w _).after _
  | .enum r vs => (SameC.of _ (decRepr r)).bind fun x => vs.cost_same w none x

theorem Fields.cost_same (w : Weights) : (fs : Fields) → ∀ g, SameC (fs.cost w g) (fs.decode g)
  | .nil, _ => .of _ _
  | .cons t fs, g => ((t.cost_same w).mapErr g).bind fun _ => (fs.cost_same w g).map _

theorem Variants.cost_same (w : Weights) :
    (vs : Variants) → ∀ p x, SameC (vs.cost w p x) (vs.decode p x)
  | .nil, _, _ => .of _ _
  | .cons d fs vs, p, x => by
    unfold Variants.cost Variants.decode
    split
    · exact (fs.cost_same w _).map _
    · exact (vs.cost_same w _ _).map _

end

/-- What is not paid for by the octets consumed. -/
def extra (P : Nat) (b : Bool) : Nat := if b then 0 else P

theorem extra_le {P Q : Nat} (b : Bool) (h : P ≤ Q) : extra P b ≤ extra Q b := by
  cases b
  · exact h
  · exact Nat.le_refl _

/-- Costs at most `A` for each octet and once more; and `P` more than that if no value comes out. -/
def Fits (A P : Nat) (m : Cost α) : Prop :=
  ∀ I : Input, I.WF → (m I).1.2.WF ∧ I.pos ≤ (m I).1.2.pos ∧
    (m I).2 ≤ A * (1 + ((m I).1.2.pos - I.pos)) + extra P (came (m I).1.1)

/-- A value takes at least one octet. -/
def EatsC (m : Cost α) : Prop :=
  ∀ I : Input, I.WF → came (m I).1.1 = true → I.pos < (m I).1.2.pos

theorem came_mapErr (r : Res DecErr α) (g : DecErr → DecErr) : came (r.mapErr g) = came r := by
  cases r <;> rfl

namespace Fits

theorem of {d : Dec α} (h : Local d) (c : Nat) : Fits c 0 (Cost.of c d) := by
  intro I hI
  obtain ⟨h1, h2⟩ := h.keeps I hI
  have h2 : (d I).2.buf.length - (d I).2.pos ≤ I.buf.length - I.pos := h2
  show (d I).2.WF ∧ I.pos ≤ (d I).2.pos ∧ c ≤ _
  refine ⟨h1, ?_, ?_⟩
  · obtain ⟨buf, pos⟩ := I
    have hp : pos ≤ buf.length := hI
    obtain ⟨r, n, hn, h1, _⟩ := h (buf.drop pos)
    have := h1 (buf.take pos)
    rw [List.take_append_drop, List.length_take, Nat.min_eq_left hp] at this
    rw [this]
    show pos ≤ pos + n
    omega
  · exact Nat.le_trans (by rw [Nat.mul_add, Nat.mul_one]; exact Nat.le_add_right _ _)
      (Nat.le_add_right _ _)

theorem mono {A A' P P' : Nat} {m : Cost α} (h : Fits A P m) (hA : A ≤ A') (hP : P ≤ P') :
    Fits A' P' m := fun I hI =>
  ⟨(h I hI).1, (h I hI).2.1, Nat.le_trans (h I hI).2.2
    (Nat.add_le_add (Nat.mul_le_mul_right _ hA) (extra_le _ hP))⟩

theorem mapErr {A P : Nat} {m : Cost α} (h : Fits A P m) (g : DecErr → DecErr) :
    Fits A P (m.mapErr g) := fun I hI => by
  have := h I hI
  unfold Cost.mapErr
  simp only [came_mapErr]
  exact this

theorem bind {A B P Q : Nat} {m : Cost α} {f : α → Cost β} (h : Fits A P m)
    (hf : ∀ a, Fits B Q (f a)) : Fits (A + B) (max P Q) (m.bind f) := by
  intro I hI
  have h1 := h I hI
  unfold Cost.bind
  generalize m I = q at h1 ⊢
  obtain ⟨⟨r, I1⟩, c⟩ := q
  obtain ⟨w1, p1, l1⟩ := h1
  simp only at w1 p1 l1
  have fail : ∀ b, b = false → c ≤ A * (1 + (I1.pos - I.pos)) + extra P b →
      c ≤ (A + B) * (1 + (I1.pos - I.pos)) + extra (max P Q) b := fun b hb hc =>
    Nat.le_trans hc (Nat.add_le_add (Nat.mul_le_mul_right _ (Nat.le_add_right _ _))
      (extra_le _ (Nat.le_max_left _ _)))
  cases r with
  | ok a =>
    obtain ⟨w2, p2, l2⟩ := hf a I1 w1
    simp only
    generalize f a I1 = q at w2 p2 l2 ⊢
    obtain ⟨⟨r, I2⟩, c2⟩ := q
    simp only at w2 p2 l2 ⊢
    refine ⟨w2, Nat.le_trans p1 p2, ?_⟩
    have l1 : c ≤ A * (1 + (I1.pos - I.pos)) := l1
    have a1 : A * (1 + (I1.pos - I.pos)) ≤ A * (1 + (I2.pos - I.pos)) :=
      Nat.mul_le_mul_left _ (by omega)
    have a2 : B * (1 + (I2.pos - I1.pos)) ≤ B * (1 + (I2.pos - I.pos)) :=
      Nat.mul_le_mul_left _ (by omega)
    have a3 := extra_le (came r) (Nat.le_max_right P Q)
    rw [Nat.add_mul]
    omega
  | err e => exact ⟨w1, p1, fail _ rfl l1⟩
  | panic p => exact ⟨w1, p1, fail _ rfl l1⟩
  | ub u => exact ⟨w1, p1, fail _ rfl l1⟩

theorem map {A P : Nat} {m : Cost α} (h : Fits A P m) (f : α → β) : Fits A P (m.map f) :=
  (h.bind fun a => Fits.of (Local.pure' _) 0).mono (Nat.le_refl _) (by simp)

theorem after {A P : Nat} {m : Cost α} (h : Fits A P m) (c : Nat) :
    Fits (c + A) P ((Cost.tick c).bind fun _ => m) :=
  ((Fits.of (Local.pure' _) c).bind fun _ => h).mono (Nat.le_refl _) (by simp)

theorem ite {c : Prop} [Decidable c] {A P : Nat} {m m' : Cost α} (h : Fits A P m) (h' : Fits A P m') :
    Fits A P (if c then m else m') := by
  split
  · exact h
  · exact h'

end Fits

theorem Cost.bind_assoc (m : Cost α) (f : α → Cost β) (g : β → Cost γ) :
    (m.bind f).bind g = m.bind fun a => (f a).bind g := by
  funext I
  unfold Cost.bind
  rcases m I with ⟨⟨r, I1⟩, c⟩
  cases r with
  | ok a =>
    simp only
    rcases f a I1 with ⟨⟨r, I2⟩, c2⟩
    cases r with
    | ok b => simp only [Nat.add_assoc]
    | err e => rfl
    | panic p => rfl
    | ub u => rfl
  | err e => rfl
  | panic p => rfl
  | ub u => rfl

theorem Cost.of_bind (a : α) (g : α → Cost γ) : (Cost.of 0 (pure a)).bind g = g a := by
  funext I
  show ((g a I).1, 0 + (g a I).2) = g a I
  rw [Nat.zero_add]

theorem EatsC.mapErr {m : Cost α} (h : EatsC m) (g : DecErr → DecErr) : EatsC (m.mapErr g) := by
  intro I hI hc
  unfold Cost.mapErr at hc ⊢
  simp only [came_mapErr] at hc
  exact h I hI hc

theorem EatsC.bindLeft {A P B Q : Nat} {m : Cost α} {f : α → Cost β} (hm : Fits A P m) (h : EatsC m)
    (hf : ∀ a, Fits B Q (f a)) : EatsC (m.bind f) := by
  intro I hI
  have h1 := h I hI
  have w1 := (hm I hI).1
  unfold Cost.bind
  generalize m I = q at h1 w1 ⊢
  obtain ⟨⟨r, I1⟩, c⟩ := q
  cases r with
  | ok a =>
    intro _
    exact Nat.lt_of_lt_of_le (h1 rfl) (hf a I1 w1).2.1
  | err e => intro hc; cases hc
  | panic p => intro hc; cases hc
  | ub u => intro hc; cases hc

theorem EatsC.bindRight {A P : Nat} {m : Cost α} {f : α → Cost β} (hm : Fits A P m)
    (hf : ∀ a, EatsC (f a)) : EatsC (m.bind f) := by
  intro I hI
  obtain ⟨w1, p1, -⟩ := hm I hI
  unfold Cost.bind
  generalize m I = q at w1 p1 ⊢
  obtain ⟨⟨r, I1⟩, c⟩ := q
  cases r with
  | ok a =>
    intro hc
    exact Nat.lt_of_le_of_lt p1 (hf a I1 w1 hc)
  | err e => intro hc; cases hc
  | panic p => intro hc; cases hc
  | ub u => intro hc; cases hc

/-- A loop of `n` rounds, each of which fits and, if `eats`, takes an octet. -/
def LoopFits (eats : Bool) (n A P : Nat) (m : Cost α) : Prop :=
  ∀ I : Input, I.WF → (m I).1.2.WF ∧ I.pos ≤ (m I).1.2.pos ∧
    (m I).2 ≤ A * (n + ((m I).1.2.pos - I.pos)) + extra P (came (m I).1.1) ∧
    (eats = true → (m I).2 ≤ 2 * A * ((m I).1.2.pos - I.pos) + extra (A + P) (came (m I).1.1) ∧
      (came (m I).1.1 = true → n ≤ (m I).1.2.pos - I.pos))

namespace LoopFits

theorem zero (eats : Bool) (A P : Nat) (a : α) : LoopFits eats 0 A P (Cost.of 0 (pure a)) := by
  intro I hI
  exact ⟨hI, Nat.le_refl _, Nat.zero_le _, fun _ => ⟨Nat.zero_le _, fun _ => Nat.zero_le _⟩⟩

theorem succ {eats : Bool} {n A P : Nat} {m : Cost α} {f : α → Cost β} (h : Fits A P m)
    (hE : eats = true → EatsC m) (hf : ∀ a, LoopFits eats n A P (f a)) :
    LoopFits eats (n + 1) A P (m.bind f) := by
  intro I hI
  have h1 := h I hI
  have hE := fun he => hE he I hI
  unfold Cost.bind
  generalize m I = q at h1 hE ⊢
  obtain ⟨⟨r, I1⟩, c⟩ := q
  obtain ⟨w1, p1, l1⟩ := h1
  simp only at w1 p1 l1 hE
  have fail : ∀ b, b = false → c ≤ A * (1 + (I1.pos - I.pos)) + extra P b →
      c ≤ A * (n + 1 + (I1.pos - I.pos)) + extra P b ∧
      (eats = true → c ≤ 2 * A * (I1.pos - I.pos) + extra (A + P) b ∧
        (b = true → n + 1 ≤ I1.pos - I.pos)) := by
    intro b hb hc
    subst hb
    refine ⟨Nat.le_trans hc (Nat.add_le_add_right (Nat.mul_le_mul_left _ (by omega)) _),
      fun _ => ⟨?_, fun h => by cases h⟩⟩
    have hc : c ≤ A * (1 + (I1.pos - I.pos)) + P := hc
    show c ≤ 2 * A * (I1.pos - I.pos) + (A + P)
    rw [Nat.mul_add, Nat.mul_one] at hc
    rw [Nat.mul_assoc]
    omega
  cases r with
  | ok a =>
    obtain ⟨w2, p2, l2, e2⟩ := hf a I1 w1
    simp only
    generalize f a I1 = q at w2 p2 l2 e2 ⊢
    obtain ⟨⟨r, I2⟩, c2⟩ := q
    simp only at w2 p2 l2 e2 ⊢
    have l1 : c ≤ A * (1 + (I1.pos - I.pos)) := l1
    refine ⟨w2, Nat.le_trans p1 p2, ?_, fun he => ?_⟩
    · have : A * (n + 1 + (I2.pos - I.pos))
          = A * (1 + (I1.pos - I.pos)) + A * (n + (I2.pos - I1.pos)) := by
        rw [← Nat.mul_add]
        congr 1
        omega
      omega
    · obtain ⟨l3, n3⟩ := e2 he
      have p3 := hE he rfl
      refine ⟨?_, fun hc => by have := n3 hc; omega⟩
      have e1 : 2 * A * (I2.pos - I.pos)
          = 2 * A * (I1.pos - I.pos) + 2 * A * (I2.pos - I1.pos) := by
        rw [← Nat.mul_add]
        congr 1
        omega
      have e3 : A * (1 + (I1.pos - I.pos)) ≤ 2 * A * (I1.pos - I.pos) := by
        rw [Nat.mul_comm 2 A, Nat.mul_assoc]
        exact Nat.mul_le_mul_left _ (by omega)
      omega
  | err e => exact ⟨w1, p1, fail _ rfl l1⟩
  | panic p => exact ⟨w1, p1, fail _ rfl l1⟩
  | ub u => exact ⟨w1, p1, fail _ rfl l1⟩

theorem map {eats : Bool} {n A P : Nat} {m : Cost α} (h : LoopFits eats n A P m) (f : α → β) :
    LoopFits eats n A P (m.map f) := by
  intro I hI
  have := h I hI
  unfold Cost.map Cost.bind
  generalize m I = q at this ⊢
  obtain ⟨⟨r, I1⟩, c⟩ := q
  cases r <;> exact this

/-- A loop of a fixed number of rounds. -/
theorem fixed {eats : Bool} {n A P : Nat} {m : Cost α} (h : LoopFits eats n A P m) :
    Fits (n * A) P m ∨ n = 0 := by
  by_cases hn : n = 0
  · exact .inr hn
  refine .inl fun I hI => ?_
  obtain ⟨w, p, l, -⟩ := h I hI
  refine ⟨w, p, Nat.le_trans l (Nat.add_le_add_right ?_ _)⟩
  rw [Nat.mul_comm n A, Nat.mul_assoc]
  refine Nat.mul_le_mul_left _ ?_
  rw [Nat.mul_add, Nat.mul_one]
  exact Nat.add_le_add_left (Nat.le_mul_of_pos_left _ (by omega)) _

/-- A loop whose rounds are counted by a length, and for which cells have been reserved. -/
theorem counted {eats : Prop} [Decidable eats] {n A P cell : Nat} {m : Cost α} (hn : n ≤ 65535)
    (h : LoopFits (decide eats) n A P m) :
    Fits (perOctet eats * (cell + A)) (65535 * cell + P) ((Cost.tick (cell * n)).bind fun _ => m) := by
  intro I hI
  obtain ⟨w, p, l, e⟩ := h I hI
  show (m I).1.2.WF ∧ I.pos ≤ (m I).1.2.pos ∧ cell * n + (m I).2 ≤ _
  refine ⟨w, p, ?_⟩
  show cell * n + (m I).2 ≤ perOctet eats * (cell + A) * (1 + ((m I).1.2.pos - I.pos))
    + extra (65535 * cell + P) (came (m I).1.1)
  generalize m I = q at *
  obtain ⟨⟨r, I1⟩, c⟩ := q
  simp only at w p l e ⊢
  have hcn : cell * n ≤ 65535 * cell := by
    rw [Nat.mul_comm]
    exact Nat.mul_le_mul_right _ hn
  by_cases he : eats
  · obtain ⟨l2, n2⟩ := e (decide_eq_true he)
    unfold perOctet
    rw [if_pos he]
    have e1 : 2 * (cell + A) * (1 + (I1.pos - I.pos))
        = 2 * cell + 2 * A + (2 * (cell * (I1.pos - I.pos)) + 2 * A * (I1.pos - I.pos)) := by
      rw [Nat.mul_add, Nat.mul_one, Nat.mul_add 2, Nat.add_mul, Nat.mul_assoc 2 cell]
    rw [e1]
    cases hc : came r with
    | true =>
      rw [hc] at l2 n2
      have : cell * n ≤ cell * (I1.pos - I.pos) := Nat.mul_le_mul_left _ (n2 rfl)
      have l2 : c ≤ 2 * A * (I1.pos - I.pos) := l2
      show cell * n + c ≤ _ + 0
      omega
    | false =>
      rw [hc] at l2
      have l2 : c ≤ 2 * A * (I1.pos - I.pos) + (A + P) := l2
      show cell * n + c ≤ _ + (65535 * cell + P)
      omega
  · unfold perOctet
    rw [if_neg he]
    have e1 : 65535 * (cell + A) * (1 + (I1.pos - I.pos))
        = 65535 * cell + 65535 * A + 65535 * (cell + A) * (I1.pos - I.pos) := by
      rw [Nat.mul_add, Nat.mul_one, Nat.mul_add]
    have e2 : A * (n + (I1.pos - I.pos)) ≤ 65535 * A + 65535 * (cell + A) * (I1.pos - I.pos) := by
      rw [Nat.mul_add]
      refine Nat.add_le_add ?_ (Nat.mul_le_mul_right _ (by omega))
      rw [Nat.mul_comm 65535]
      exact Nat.mul_le_mul_left _ hn
    rw [e1]
    have e3 : extra P (came r) ≤ extra (65535 * cell + P) (came r) := extra_le _ (by omega)
    omega

end LoopFits

theorem costItems_fits {A P : Nat} {m : Cost α} (h : Fits A P m) (eats : Bool)
    (hE : eats = true → EatsC m) (node : Nat) :
    ∀ n i, LoopFits eats n (node + A) P (costItems node m n i)
  | 0, _ => .zero _ _ _ _
  | n + 1, i => by
    unfold costItems
    have e : ((m.mapErr fun e => .badItem (.item i e)).bind fun v => (Cost.tick node).bind fun _ =>
        (costItems node m n (i + 1)).map fun vs =>
          (⟨v :: vs.val, by simp [vs.property]⟩ : Items α (n + 1)))
      = (((m.mapErr fun e => .badItem (.item i e)).bind fun v => (Cost.of node (pure v))).bind fun v =>
        (costItems node m n (i + 1)).map fun vs =>
          (⟨v :: vs.val, by simp [vs.property]⟩ : Items α (n + 1))) := by
      rw [Cost.bind_assoc]
      rfl
    rw [e]
    refine .succ ?_ (fun he => ?_) fun v => (costItems_fits h eats hE node n (i + 1)).map _
    · exact ((h.mapErr _).bind fun v => Fits.of (Local.pure' v) node).mono (by omega) (by simp)
    · exact EatsC.bindLeft (h.mapErr _) ((hE he).mapErr _) fun v => Fits.of (Local.pure' v) node

theorem costMapLoop_fits [DecidableEq α] {A P B Q : Nat} {mK : Cost α} {mV : Cost β} (hK : Fits A P mK)
    (hV : Fits B Q mV) (eats : Bool) (hE : eats = true → EatsC mK ∨ EatsC mV) :
    ∀ n i m, LoopFits eats n (A + B) (max P Q) (costMapLoop mK mV n i m)
  | 0, _, _ => .zero _ _ _ _
  | n + 1, i, m => by
    unfold costMapLoop
    have e : ((mK.mapErr (fun e => .badItem (.item i e))).bind fun k =>
        (mV.mapErr (fun e => .badItem (.item i e))).bind fun v =>
          costMapLoop mK mV n (i + 1) ⟨mapInsert k v m.val, mapInsert_nodup k v m.val m.property⟩)
      = (((mK.mapErr (fun e => .badItem (.item i e))).bind fun k =>
          (mV.mapErr (fun e => .badItem (.item i e))).map fun v => (k, v)).bind fun p =>
          costMapLoop mK mV n (i + 1)
            ⟨mapInsert p.1 p.2 m.val, mapInsert_nodup p.1 p.2 m.val m.property⟩) := by
      rw [Cost.bind_assoc]
      congr 1
      funext k
      unfold Cost.map
      rw [Cost.bind_assoc]
      congr 1
      funext v
      rw [Cost.of_bind]
    rw [e]
    refine .succ ((hK.mapErr _).bind fun k => (hV.mapErr _).map _) (fun he => ?_) fun p =>
      costMapLoop_fits hK hV eats hE n (i + 1) _
    rcases hE he with h | h
    · exact EatsC.bindLeft (hK.mapErr _) (h.mapErr _) fun k => (hV.mapErr _).map _
    · exact EatsC.bindRight (hK.mapErr _) fun k =>
        EatsC.bindLeft (hV.mapErr _) (h.mapErr _) fun v => Fits.of (Local.pure' _) 0

theorem costSetLoop_fits [DecidableEq α] {A P : Nat} {mK : Cost α} (hK : Fits A P mK) (eats : Bool)
    (hE : eats = true → EatsC mK) :
    ∀ n i s, LoopFits eats n A P (costSetLoop mK n i s)
  | 0, _, _ => .zero _ _ _ _
  | n + 1, i, s => .succ (hK.mapErr _) (fun he => (hE he).mapErr _) fun k =>
      costSetLoop_fits hK eats hE n (i + 1) _

end Oct
