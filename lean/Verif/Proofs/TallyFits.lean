import Verif.Proofs.Tally
/- Lemmas for C133: how much encoding costs. -/
set_option linter.unusedVariables false
namespace Oct
open Spec

namespace Effort

/-- What sequencing does, by the outcome of the first. -/
theorem andThen_ok {m n : Effort} {o : Output} (h : finished (m o).1.1 = true) :
    m.andThen n o = ((n (m o).1.2).1, (m o).2 + (n (m o).1.2).2) := by
  unfold andThen
  revert h
  generalize m o = q
  obtain ⟨⟨r, o'⟩, c⟩ := q
  intro h
  cases r with
  | ok a => rfl
  | err _ => exact nomatch h
  | panic _ => exact nomatch h
  | ub _ => exact nomatch h

theorem andThen_not {m n : Effort} {o : Output} (h : finished (m o).1.1 = false) :
    finished (m.andThen n o).1.1 = false ∧ (m.andThen n o).1.2 = (m o).1.2 ∧
      (m.andThen n o).2 = (m o).2 := by
  unfold andThen
  revert h
  generalize m o = q
  obtain ⟨⟨r, o'⟩, c⟩ := q
  intro h
  cases r with
  | ok a => exact nomatch h
  | err _ => exact ⟨rfl, rfl, rfl⟩
  | panic _ => exact ⟨rfl, rfl, rfl⟩
  | ub _ => exact ⟨rfl, rfl, rfl⟩

theorem finished_mapErr (g : EncErr → EncErr) (r : Res EncErr Unit) : finished (r.mapErr g) = finished r := by
  cases r <;> rfl

/-- The cost of coming to the end is `c`, and that of not coming to it is no more. -/
def Costs (c : Nat) (m : Effort) : Prop :=
  ∀ o, (m o).2 ≤ c ∧ (finished (m o).1.1 = true → (m o).2 = c)

theorem Costs.num (p : Prices) (n x : Nat) : Costs (p.call + p.write) (tallyNum p n x) :=
  fun o => ⟨Nat.le_refl _, fun _ => rfl⟩

theorem Costs.of (e : Enc Unit) : Costs 0 (.of 0 e) := fun o => ⟨Nat.le_refl _, fun _ => rfl⟩

theorem Costs.call {c : Nat} {m : Effort} (h : Costs c m) (p : Prices) : Costs (p.call + c) (m.call p) := fun o =>
  ⟨Nat.add_le_add_left (h o).1 _, fun hf => congrArg (p.call + ·) ((h o).2 hf)⟩

theorem Costs.mapErr {c : Nat} {m : Effort} (h : Costs c m) (g : EncErr → EncErr) : Costs c (m.mapErr g) := fun o =>
  ⟨(h o).1, fun hf => (h o).2 (by rwa [← finished_mapErr g])⟩

theorem Costs.andThen {c d : Nat} {m n : Effort} (h : Costs c m) (k : Costs d n) : Costs (c + d) (m.andThen n) :=
  fun o => by
    have h1 := h o
    cases hf : finished (m o).1.1 with
    | true =>
      rw [andThen_ok hf]
      have h2 := h1.2 hf
      have h3 := k (m o).1.2
      refine ⟨by dsimp only; omega, fun hf' => ?_⟩
      have h4 := h3.2 hf'
      dsimp only
      omega
    | false =>
      obtain ⟨e1, e2, e3⟩ := andThen_not (n := n) hf
      rw [e1, e3]
      exact ⟨by omega, fun h => nomatch h⟩

theorem costs_inv (p : Prices) : Inv p (fun m => ∃ c, Costs c m) where
  num n x _ _ := ⟨_, Costs.num p n x⟩
  pure := ⟨0, Costs.of _⟩
  fail e := ⟨0, Costs.of _⟩
  panic x := ⟨0, Costs.of _⟩
  call := fun ⟨_, h⟩ => ⟨_, h.call p⟩
  mapErr := fun g ⟨_, h⟩ => ⟨_, h.mapErr g⟩
  andThen := fun ⟨_, h⟩ ⟨_, k⟩ => ⟨_, h.andThen k⟩

/-- Bookkeeping of the stream: it stays well-formed, keeps its capacity, and does not go back. -/
def Onward (m : Effort) : Prop :=
  ∀ o, o.WF → (m o).1.2.WF ∧ (m o).1.2.buf.length = o.buf.length ∧ o.pos ≤ (m o).1.2.pos

theorem encNum_cases (n x : Nat) {o : Output} (ho : o.WF) :
    ((encNum n x o).1 = .ok () ∧ (encNum n x o).2.WF ∧ (encNum n x o).2.buf.length = o.buf.length ∧
      (encNum n x o).2.pos = o.pos + n) ∨
    (finished (encNum n x o).1 = false ∧ (encNum n x o).2 = o) := by
  have h := encNum_emits n x o ho
  have hl : (leBytes n x).length = n := by simp [leBytes]
  by_cases hr : (leBytes n x).length ≤ o.remaining
  · left
    rw [h.1 hr]
    exact ⟨rfl, ho.put hr, Output.capacity_put ho hr, by show o.pos + _ = _; rw [hl]⟩
  · right
    unfold encNum Enc.write Output.write
    have hl' : (toLe n x).length = n := by
      rw [toLe_length]
    rw [hl] at hr
    unfold Output.remaining Output.capacity Output.position at hr
    dsimp only
    rw [if_pos (by rw [hl']; omega)]
    exact ⟨rfl, rfl⟩

theorem onward_inv (p : Prices) : Inv p Onward where
  num n x _ _ := fun o ho => by
    show (encNum n x o).2.WF ∧ (encNum n x o).2.buf.length = _ ∧ _ ≤ (encNum n x o).2.pos
    rcases encNum_cases n x ho with h | h
    · exact ⟨h.2.1, h.2.2.1, by omega⟩
    · rw [h.2]; exact ⟨ho, rfl, Nat.le_refl _⟩
  pure := fun o ho => ⟨ho, rfl, Nat.le_refl _⟩
  fail e := fun o ho => ⟨ho, rfl, Nat.le_refl _⟩
  panic x := fun o ho => ⟨ho, rfl, Nat.le_refl _⟩
  call h := h
  mapErr g h := h
  andThen := fun {m n} h k o ho => by
    have h1 := h o ho
    cases hf : finished (m o).1.1 with
    | true =>
      rw [andThen_ok hf]
      have h2 := k _ h1.1
      exact ⟨h2.1, h2.2.1.trans h1.2.1, Nat.le_trans h1.2.2 h2.2.2⟩
    | false =>
      rw [(andThen_not (n := n) hf).2.1]
      exact h1

/-- One write for each one to sixteen octets. -/
def Paced (m : Effort) : Prop :=
  ∀ o, o.WF → (m o).2 ≤ written o (m o).1.2 + (if finished (m o).1.1 then 0 else 1) ∧
    written o (m o).1.2 ≤ 16 * (m o).2

theorem paced_inv : Inv .writes (fun m => Onward m ∧ Paced m) where
  num n x h0 h16 := ⟨(onward_inv .writes).num n x h0 h16, fun o ho => by
    show (0 + 1 ≤ written o (encNum n x o).2 + (if finished (encNum n x o).1 then 0 else 1) ∧
      written o (encNum n x o).2 ≤ 16 * (0 + 1))
    unfold written Output.position
    rcases encNum_cases n x ho with h | h
    · rw [h.1, h.2.2.2]
      show 0 + 1 ≤ _ + 0 ∧ _
      omega
    · rw [h.1, h.2]
      show 0 + 1 ≤ _ + 1 ∧ _
      omega⟩
  pure := ⟨(onward_inv .writes).pure, fun o ho => ⟨Nat.zero_le _, by
    show o.pos - o.pos ≤ _
    omega⟩⟩
  fail e := ⟨(onward_inv .writes).fail e, fun o ho => ⟨Nat.zero_le _, by
    show o.pos - o.pos ≤ _
    omega⟩⟩
  panic x := ⟨(onward_inv .writes).panic x, fun o ho => ⟨Nat.zero_le _, by
    show o.pos - o.pos ≤ _
    omega⟩⟩
  call := fun {m} ⟨hO, h⟩ => ⟨hO, fun o ho => by
    show 0 + (m o).2 ≤ _ ∧ _ ≤ 16 * (0 + (m o).2)
    rw [Nat.zero_add]
    exact h o ho⟩
  mapErr := fun {m} g ⟨hO, h⟩ => ⟨hO, fun o ho => by
    show (m o).2 ≤ _ + (if finished ((m o).1.1.mapErr g) then 0 else 1) ∧ _
    rw [finished_mapErr]
    exact h o ho⟩
  andThen := fun {m n} ⟨hO, h⟩ ⟨kO, k⟩ => ⟨(onward_inv .writes).andThen hO kO, fun o ho => by
    have h1 := h o ho
    have h0 := hO o ho
    cases hf : finished (m o).1.1 with
    | true =>
      rw [andThen_ok hf]
      rw [hf] at h1
      have k1 := k _ h0.1
      have k0 := kO _ h0.1
      unfold written Output.position at *
      dsimp only
      simp only [if_true] at h1
      omega
    | false =>
      obtain ⟨e1, e2, e3⟩ := andThen_not (n := n) hf
      rw [e1, e2, e3]
      rw [hf] at h1
      exact h1⟩

/-- `a` if it comes to the end, `A` otherwise, and `B` for each octet. -/
def Fits (a A B : Nat) (m : Effort) : Prop :=
  ∀ o, o.WF → (m o).2 ≤ (if finished (m o).1.1 then a else A) + B * written o (m o).1.2

/-- If it comes to the end, there is an octet. -/
def Puts (m : Effort) : Prop :=
  ∀ o, o.WF → finished (m o).1.1 = true → 0 < written o (m o).1.2

namespace Fits

theorem mono {a A B a' A' B' : Nat} {m : Effort} (h : Fits a A B m) (ha : a ≤ a') (hA : A ≤ A')
    (hB : B ≤ B') : Fits a' A' B' m := fun o ho => by
  refine Nat.le_trans (h o ho) (Nat.add_le_add ?_ (Nat.mul_le_mul_right _ hB))
  split <;> assumption

theorem num (p : Prices) (n x : Nat) : Fits (p.call + p.write) (p.call + p.write) 0 (tallyNum p n x) :=
  fun o _ => by
    show p.call + p.write ≤ _
    rw [ite_self]
    omega

theorem free (e : Enc Unit) : Fits 0 0 0 (.of 0 e) := fun o _ => Nat.zero_le _

theorem call {a A B : Nat} {m : Effort} (h : Fits a A B m) (p : Prices) :
    Fits (p.call + a) (p.call + A) B (m.call p) := fun o ho => by
  have := h o ho
  show p.call + (m o).2 ≤ (if finished (m o).1.1 then p.call + a else p.call + A) + B * written o (m o).1.2
  split <;> simp_all <;> omega

theorem mapErr {a A B : Nat} {m : Effort} (h : Fits a A B m) (g : EncErr → EncErr) :
    Fits a A B (m.mapErr g) := fun o ho => by
  show (m o).2 ≤ (if finished ((m o).1.1.mapErr g) then a else A) + B * written o (m o).1.2
  rw [finished_mapErr]
  exact h o ho

theorem written_add {o o1 o2 : Output} (h1 : o.pos ≤ o1.pos) (h2 : o1.pos ≤ o2.pos) :
    written o o2 = written o o1 + written o1 o2 := by
  unfold written Output.position
  omega

/-- One after the other, at the greater of the rates. -/
theorem andThen' {a A a' A' B : Nat} {m n : Effort} (h : Fits a A B m) (hO : Onward m) (k : Fits a' A' B n)
    (kO : Onward n) : Fits (a + a') (max A (a + A')) B (m.andThen n) := fun o ho => by
  have h1 := h o ho
  have h0 := hO o ho
  cases hf : finished (m o).1.1 with
  | true =>
    rw [andThen_ok hf]
    rw [hf] at h1
    have k1 := k _ h0.1
    have k0 := kO _ h0.1
    dsimp only
    rw [written_add h0.2.2 k0.2.2, Nat.mul_add]
    simp only [if_true] at h1
    have : (if finished (n (m o).1.2).1.1 = true then a + a' else max A (a + A'))
        ≥ a + (if finished (n (m o).1.2).1.1 = true then a' else A') := by
      split <;> omega
    omega
  | false =>
    obtain ⟨e1, e2, e3⟩ := andThen_not (n := n) hf
    rw [e1, e2, e3]
    rw [hf] at h1
    simp only [Bool.false_eq_true, if_false] at h1 ⊢
    omega

theorem andThen {a A B a' A' B' : Nat} {m n : Effort} (h : Fits a A B m) (hO : Onward m) (k : Fits a' A' B' n)
    (kO : Onward n) (ha : a ≤ A) : Fits (a + a') (A + A') (B + B') (m.andThen n) :=
  ((h.mono (Nat.le_refl _) (Nat.le_refl _) (Nat.le_add_right B B')).andThen' hO
    (k.mono (Nat.le_refl _) (Nat.le_refl _) (Nat.le_add_left B' B)) kO).mono (Nat.le_refl _) (by omega)
    (Nat.le_refl _)

/-- What is spent on an encoding that writes can be charged to what it writes. -/
theorem charge {a A B : Nat} {m : Effort} (h : Fits a A B m) (hP : Puts m) : Fits 0 A (a + B) m := fun o ho => by
  have h1 := h o ho
  cases hf : finished (m o).1.1 with
  | true =>
    rw [hf] at h1
    have := hP o ho hf
    simp only [if_true] at h1 ⊢
    have : a * 1 ≤ a * written o (m o).1.2 := Nat.mul_le_mul_left a this
    rw [Nat.add_mul]
    omega
  | false =>
    rw [hf] at h1
    simp only [Bool.false_eq_true, if_false] at h1 ⊢
    rw [Nat.add_mul]
    omega

end Fits

end Effort

open Effort

theorem tallyUsize_costs (p : Prices) {n : Nat} (h : n ≤ 65535) :
    Costs (p.call + (p.call + p.write)) (tallyUsize p n) := by
  unfold tallyUsize
  rw [if_pos h]
  exact (Costs.num p 2 n).call p

theorem tallyItems_costs {α : Type} {c : Nat} {m : α → Effort} (h : ∀ v, Costs c (m v))
    (wrap : Nat → EncErr → EncErr) : (i : Nat) → (l : List α) → Costs (c * l.length) (tallyItems m wrap i l)
  | _, [] => Costs.of _
  | i, v :: vs => by
    have := ((h v).mapErr (wrap i)).andThen (tallyItems_costs h wrap (i + 1) vs)
    rwa [List.length_cons, Nat.mul_add, Nat.mul_one, Nat.add_comm (c * vs.length)]

theorem tallySlice_costs {α : Type} (p : Prices) {c : Nat} {m : α → Effort} (h : ∀ v, Costs c (m v))
    {l : List α} (hl : l.length ≤ 65535) :
    Costs (p.call + ((p.call + (p.call + p.write)) + c * l.length)) (tallySlice p m l) :=
  (((tallyUsize_costs p hl).mapErr _).andThen (tallyItems_costs h _ 0 l)).call p

theorem tallyItems_fits {α : Type} {A B : Nat} {m : α → Effort} (h : ∀ v, Fits 0 A B (m v))
    (hO : ∀ v, Onward (m v)) (p : Prices) (wrap : Nat → EncErr → EncErr) : (i : Nat) → (l : List α) →
    Fits 0 A B (tallyItems m wrap i l)
  | _, [] => (Fits.free _).mono (Nat.le_refl _) (Nat.zero_le _) (Nat.zero_le _)
  | i, v :: vs =>
    (((h v).mapErr _).andThen' ((onward_inv p).mapErr _ (hO v)) (tallyItems_fits h hO p wrap (i + 1) vs)
      ((onward_inv p).items hO wrap (i + 1) vs)).mono (Nat.le_refl _) (by omega) (Nat.le_refl _)

theorem tallyItems_fits_length {α : Type} {a A B : Nat} {m : α → Effort} (h : ∀ v, Fits a A B (m v))
    (hO : ∀ v, Onward (m v)) (ha : a ≤ A) (p : Prices) (wrap : Nat → EncErr → EncErr) : (i : Nat) →
    (l : List α) → Fits (l.length * a) (l.length * A) (l.length * B) (tallyItems m wrap i l)
  | _, [] => (Fits.free _).mono (Nat.zero_le _) (Nat.zero_le _) (Nat.zero_le _)
  | i, v :: vs => by
    have := ((h v).mapErr (wrap i)).andThen ((onward_inv p).mapErr _ (hO v))
      (tallyItems_fits_length h hO ha p wrap (i + 1) vs) ((onward_inv p).items hO wrap (i + 1) vs) ha
    refine this.mono ?_ ?_ ?_ <;> rw [List.length_cons, Nat.add_mul, Nat.one_mul, Nat.add_comm] <;>
      exact Nat.le_refl _

theorem tallyEntries_fits {α β : Type} {A B : Nat} {mK : α → Effort} {mV : β → Effort}
    (h : ∀ k v, Fits 0 A B ((mK k).andThen (mV v))) (hK : ∀ k, Onward (mK k)) (hV : ∀ v, Onward (mV v))
    (p : Prices) : (l : List (α × β)) → Fits 0 A B (tallyEntries mK mV l)
  | [] => (Fits.free _).mono (Nat.le_refl _) (Nat.zero_le _) (Nat.zero_le _)
  | (k, v) :: l => by
    have h1 := ((h k v).andThen' ((onward_inv p).andThen (hK k) (hV v)) (tallyEntries_fits h hK hV p l)
      ((onward_inv p).entries hK hV l)).mono (Nat.le_refl _) (A' := A) (by omega) (Nat.le_refl _)
    intro o ho
    have h2 := h1 o ho
    have e : (tallyEntries mK mV ((k, v) :: l)) o = ((mK k).andThen (mV v)).andThen (tallyEntries mK mV l) o := by
      show Effort.andThen (mK k) (Effort.andThen (mV v) (tallyEntries mK mV l)) o = _
      unfold Effort.andThen
      generalize mK k o = q
      obtain ⟨⟨r, o'⟩, c⟩ := q
      cases r with
      | ok a =>
        dsimp only
        generalize mV v o' = q
        obtain ⟨⟨r, o''⟩, d⟩ := q
        cases r with
        | ok a => dsimp only; rw [Nat.add_assoc]
        | err _ => rfl
        | panic _ => rfl
        | ub _ => rfl
      | err _ => rfl
      | panic _ => rfl
      | ub _ => rfl
    rw [e]
    exact h2

theorem tallyKeys_fits {α : Type} {A B : Nat} {mK : α → Effort} (h : ∀ k, Fits 0 A B (mK k))
    (hK : ∀ k, Onward (mK k)) (p : Prices) : (l : List α) → Fits 0 A B (tallyKeys mK l)
  | [] => (Fits.free _).mono (Nat.le_refl _) (Nat.zero_le _) (Nat.zero_le _)
  | k :: l =>
    ((h k).andThen' (hK k) (tallyKeys_fits h hK p l) ((onward_inv p).keys hK l)).mono (Nat.le_refl _) (by omega)
      (Nat.le_refl _)

end Oct
