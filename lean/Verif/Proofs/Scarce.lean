import Verif.Spec.Scarce
import Verif.Proofs.CostTy
import Verif.Proofs.Everywhere
/-
Decoding where memory may run out asks for the same, whatever the allocator does, until it refuses.
-/
namespace Oct
open Spec
set_option linter.unusedVariables false
variable {α β : Type}

theorem granted_append (g : Allocator) : ∀ (before l l' : List Nat),
    Granted g before (l ++ l') ↔ Granted g before l ∧ Granted g (before ++ l) l'
  | before, [], l' => by simp [Granted]
  | before, n :: l, l' => by
    simp only [List.cons_append, Granted, granted_append g _ l l', List.append_assoc, List.nil_append, and_assoc]

/-- What became of a decoding that asks for `l`. -/
def Served (g : Allocator) (before l : List Nat) (x : ScarceEnd α × Input × List Nat) (r : Res DecErr α × Input) : Prop :=
  (Granted g before l ∧ x = (.came r.1, r.2, before ++ l)) ∨
  ∃ p n q I, l = p ++ n :: q ∧ Granted g before p ∧ g (before ++ p) n = false ∧ x = (.aborted, I, before ++ (p ++ [n]))

/-- What is asked for depends on the stream alone, and, given `P`, is no more than what is charged. -/
def Serves (P : Prop) (m : Allocator → Scarce α) (c : Cost α) : Prop :=
  ∀ I, ∃ l : List Nat, (∀ n ∈ l, n ≠ 0) ∧ (P → l.sum ≤ (c I).2) ∧
    ∀ g before, Served g before l (m g I before) (c I).1

namespace Serves
variable {P : Prop}

theorem of (k : Nat) (d : Dec α) : Serves P (fun _ => Scarce.of d) (Cost.of k d) := fun I =>
  ⟨[], fun _ h => (nomatch h), fun _ => Nat.zero_le _, fun g before => .inl ⟨trivial, by simp [Scarce.of, Cost.of]⟩⟩

theorem ask {n k : Nat} (h : P → n ≤ k) : Serves P (fun g => Scarce.ask g n) (Cost.tick k) := fun I => by
  by_cases hn : n = 0
  · refine ⟨[], fun _ h => (nomatch h), fun _ => Nat.zero_le _, fun g before => .inl ⟨trivial, ?_⟩⟩
    simp [Scarce.ask, hn, Cost.tick, Cost.of]
    exact ⟨rfl, rfl⟩
  · refine ⟨[n], by simpa using hn, fun hp => by simpa [Cost.tick, Cost.of] using h hp, fun g before => ?_⟩
    cases hg : g before n with
    | true =>
      refine .inl ⟨⟨hg, trivial⟩, ?_⟩
      simp [Scarce.ask, hn, hg, Cost.tick, Cost.of]
      exact ⟨rfl, rfl⟩
    | false =>
      refine .inr ⟨[], n, [], I, rfl, trivial, by simpa using hg, ?_⟩
      simp [Scarce.ask, hn, hg]

theorem mapErr {m : Allocator → Scarce α} {c : Cost α} (h : Serves P m c) (e : DecErr → DecErr) :
    Serves P (fun g => (m g).mapErr e) (c.mapErr e) := fun I => by
  obtain ⟨l, h0, h1, h2⟩ := h I
  refine ⟨l, h0, h1, fun g before => ?_⟩
  show Served g before l ((m g).mapErr e I before) _
  rcases h2 g before with ⟨hg, hx⟩ | ⟨p, n, q, I', hl, hg, hn, hx⟩
  · exact .inl ⟨hg, by rw [Scarce.mapErr, hx]; rfl⟩
  · exact .inr ⟨p, n, q, I', hl, hg, hn, by rw [Scarce.mapErr, hx]⟩

theorem bind' {m : Allocator → Scarce α} {c : Cost α} {f : Allocator → α → Scarce β} {k : α → Cost β}
    (h : Serves P m c) (hf : ∀ I a I', (c I).1 = (.ok a, I') → Serves P (fun g => f g a) (k a)) :
    Serves P (fun g => (m g).bind (f g)) (c.bind k) := fun I => by
  obtain ⟨l, h0, h1, h2⟩ := h I
  have hf := hf I
  unfold Cost.bind
  generalize c I = q at h1 h2 hf ⊢
  obtain ⟨⟨r, I1⟩, n1⟩ := q
  have stop : ∀ r' : Res DecErr β, (∀ x g before, m g I before = (.came r, x) → (m g).bind (f g) I before = (.came r', x)) →
      ∃ l : List Nat, (∀ n ∈ l, n ≠ 0) ∧ (P → l.sum ≤ n1) ∧
        ∀ g before, Served g before l ((m g).bind (f g) I before) (r', I1) := by
    intro r' hr
    refine ⟨l, h0, h1, fun g before => ?_⟩
    rcases h2 g before with ⟨hg, hx⟩ | ⟨p, n, q, I', hl, hg, hn, hx⟩
    · exact .inl ⟨hg, hr _ g before hx⟩
    · exact .inr ⟨p, n, q, I', hl, hg, hn, by rw [Scarce.bind, hx]⟩
  cases r with
  | err e => exact stop _ fun x g before hx => by rw [Scarce.bind, hx]
  | panic e => exact stop _ fun x g before hx => by rw [Scarce.bind, hx]
  | ub e => exact stop _ fun x g before hx => by rw [Scarce.bind, hx]
  | ok a =>
    obtain ⟨l', h0', h1', h2'⟩ := hf a I1 rfl I1
    refine ⟨l ++ l', ?_, fun hp => ?_, fun g before => ?_⟩
    · intro n hn
      rcases List.mem_append.mp hn with hn | hn
      · exact h0 n hn
      · exact h0' n hn
    · have a1 := h1 hp
      have a2 := h1' hp
      rw [List.sum_append]
      exact Nat.add_le_add a1 a2
    · show Served g before (l ++ l') ((m g).bind (f g) I before) (k a I1).1
      rcases h2 g before with ⟨hg, hx⟩ | ⟨p, n, q, I', hl, hg, hn, hx⟩
      · have hb : (m g).bind (f g) I before = f g a I1 (before ++ l) := by rw [Scarce.bind, hx]
        rw [hb]
        rcases h2' g (before ++ l) with ⟨hg', hx'⟩ | ⟨p, n, q, I', hl, hg', hn, hx'⟩
        · exact .inl ⟨(granted_append g _ _ _).mpr ⟨hg, hg'⟩, by rw [← List.append_assoc]; exact hx'⟩
        · refine .inr ⟨l ++ p, n, q, I', by rw [hl, List.append_assoc], (granted_append g _ _ _).mpr ⟨hg, hg'⟩, ?_, ?_⟩
          · rw [← List.append_assoc]; exact hn
          · simp only [List.append_assoc] at hx' ⊢
            exact hx'
      · exact .inr ⟨p, n, q ++ l', I', by rw [hl, List.append_assoc, List.cons_append], hg, hn, by rw [Scarce.bind, hx]⟩

theorem bind {m : Allocator → Scarce α} {c : Cost α} {f : Allocator → α → Scarce β} {k : α → Cost β}
    (h : Serves P m c) (hf : ∀ a, Serves P (fun g => f g a) (k a)) :
    Serves P (fun g => (m g).bind (f g)) (c.bind k) := h.bind' fun _ a _ _ => hf a

theorem map {m : Allocator → Scarce α} {c : Cost α} (h : Serves P m c) (f : α → β) :
    Serves P (fun g => (m g).map f) (c.map f) := h.bind fun a => .of 0 _

theorem ite {p : Prop} [Decidable p] {m m' : Allocator → Scarce α} {c c' : Cost α} (h : Serves P m c)
    (h' : Serves P m' c') : Serves P (fun g => if p then m g else m' g) (if p then c else c') := by
  by_cases hp : p
  · simp only [if_pos hp]; exact h
  · simp only [if_neg hp]; exact h'

/-- Calls are charged for, too. -/
theorem call {m : Allocator → Scarce α} {c : Cost α} (h : Serves P m c) (k : Nat) :
    Serves P m ((Cost.tick k).bind fun _ => c) := fun I => by
  obtain ⟨l, h0, h1, h2⟩ := h I
  exact ⟨l, h0, fun hp => Nat.le_trans (h1 hp) (Nat.le_add_left _ _), h2⟩

/-- What is asked for once the value is there. -/
theorem hold {m : Allocator → Scarce α} {c : Cost α} (h : Serves P m c) {n k : α → Nat} (hn : ∀ a, P → n a ≤ k a) :
    Serves P (fun g => (m g).bind fun a => (Scarce.ask g (n a)).bind fun _ => Scarce.of (pure a))
      (c.bind fun a => Cost.of (k a) (pure a)) :=
  h.bind fun a I => by
    obtain ⟨l, h0, h1, h2⟩ := ((ask (hn a)).bind (f := fun _ _ => Scarce.of (pure a)) (k := fun _ => Cost.of 0 (pure a))
      fun _ => .of 0 _) I
    exact ⟨l, h0, h1, h2⟩

theorem mono {Q : Prop} {m : Allocator → Scarce α} {c : Cost α} (h : Serves P m c) (hq : Q → P) : Serves Q m c :=
  fun I => by
    obtain ⟨l, h0, h1, h2⟩ := h I
    exact ⟨l, h0, fun q => h1 (hq q), h2⟩

end Serves

section
variable {P : Prop} {m : Allocator → Scarce α} {c : Cost α}

theorem scarceItems_serves (h : Serves P m c) {node k : Nat} (hk : P → node ≤ k) : ∀ n i,
    Serves P (fun g => scarceItems g node (m g) n i) (costItems k c n i)
  | 0, _ => .of _ _
  | n + 1, i => (h.mapErr _).bind fun v => (Serves.ask hk).bind fun _ => (scarceItems_serves h hk n (i + 1)).map _

theorem scarceVec_serves (w : Weights) (h : Serves P m c) {size : Nat} (hs : P → size ≤ w.cell) :
    Serves P (fun g => scarceVec g size (m g)) (costVec w c) :=
  (Serves.of _ decUsize).bind fun len => (Serves.ask fun hp => by
    unfold Weights.buffer
    split
    · subst len; simp
    · rw [Nat.mul_comm]
      exact Nat.le_trans (Nat.mul_le_mul_right _ (hs hp)) (Nat.le_add_left _ _)).bind fun _ =>
        (scarceItems_serves h (fun _ => Nat.le_refl _) len 0).map _

theorem scarceList_serves (w : Weights) (h : Serves P m c) {node : Nat} (hs : P → node ≤ w.alloc) :
    Serves P (fun g => scarceList g node (m g)) (costList w c) :=
  (Serves.of _ decUsize).bind fun len => (scarceItems_serves h hs len 0).map _

theorem scarceSized_serves (w : Weights) (h : Serves P m c) (n : Nat) :
    Serves P (fun g => scarceSized g (m g) n) (costSized w c n) :=
  (Serves.of _ decUsize).bind fun len =>
    .ite (.of _ _) ((scarceItems_serves h (fun _ => Nat.le_refl _) n 0).map _)

theorem scarceMapLoop_serves [DecidableEq α] (h : Serves P m c) {m' : Allocator → Scarce β} {c' : Cost β}
    (h' : Serves P m' c') : ∀ n i s, Serves P (fun g => scarceMapLoop (m g) (m' g) n i s) (costMapLoop c c' n i s)
  | 0, _, _ => .of _ _
  | n + 1, i, s => (h.mapErr _).bind fun k => (h'.mapErr _).bind fun v => scarceMapLoop_serves h h' n _ _

theorem scarceSetLoop_serves [DecidableEq α] (h : Serves P m c) : ∀ n i s,
    Serves P (fun g => scarceSetLoop (m g) n i s) (costSetLoop c n i s)
  | 0, _, _ => .of _ _
  | n + 1, i, s => (h.mapErr _).bind fun k => scarceSetLoop_serves h n _ _

theorem table_serves (w : Weights) {table : Nat → Nat} (ht : P → ∀ n, 0 < n → n ≤ 65535 → table n ≤ w.alloc + w.cell * n)
    {len : Nat} (hl : len ≤ 65535) :
    Serves P (fun g => Scarce.ask g (if len = 0 then 0 else table len)) (Cost.tick (w.buffer len)) :=
  Serves.ask fun hp => by
    unfold Weights.buffer
    split
    · exact Nat.le_refl _
    · exact ht hp len (by omega) hl

theorem scarceHashMap_serves [DecidableEq α] (w : Weights) (h : Serves P m c) {m' : Allocator → Scarce β} {c' : Cost β}
    (h' : Serves P m' c') {table : Nat → Nat}
    (ht : P → ∀ n, 0 < n → n ≤ 65535 → table n ≤ w.alloc + w.cell * n) :
    Serves P (fun g => scarceHashMap g table (m g) (m' g)) (costHashMap w c c') :=
  (Serves.of _ decUsize).bind' fun I len I' e =>
    (table_serves w ht (decUsize_le e)).bind fun _ => scarceMapLoop_serves h h' len 0 _

theorem scarceHashSet_serves [DecidableEq α] (w : Weights) (h : Serves P m c) {table : Nat → Nat}
    (ht : P → ∀ n, 0 < n → n ≤ 65535 → table n ≤ w.alloc + w.cell * n) :
    Serves P (fun g => scarceHashSet g table (m g)) (costHashSet w c) :=
  (Serves.of _ decUsize).bind' fun I len I' e =>
    (table_serves w ht (decUsize_le e)).bind fun _ => scarceSetLoop_serves h len 0 _

end

theorem wrapped_le {H : HeapOf} {w : Weights} {t : Ty} : (k : Wrap) →
    WithinHeap H w.alloc w.cell (.wrap k t) → H.wrapped (H.size t) k ≤ k.cost w
  | .arc, h => h.1
  | .rc, h => h.1
  | .box, h => h.1
  | .ref, _ | .refMut, _ | .tuple1, _ | .cell, _ | .cow, _ | .lazyCell, _ | .lazyLock, _ | .rangeFrom, _
  | .rangeTo, _ | .rangeToInclusive, _ | .saturating, _ | .wrapping, _ | .atomic, _ => Nat.le_refl _

mutual

theorem Ty.scarce_serves (H : HeapOf) (w : Weights) : (t : Ty) →
    Serves (WithinHeap H w.alloc w.cell t) (fun g => t.scarce H g) (t.cost w)
  | .num _ | .bool | .char | .usize | .isize | .nonZero _ | .unit _ | .infallible | .duration | .systemTime _
  | .ipv4 | .ipv6 | .ipAddr | .socketAddrV4 | .socketAddrV6 | .socketAddr | .sizedStr _ => .of _ _
  | .wrap k t => (((t.scarce_serves H w).mono fun h : WithinHeap H w.alloc w.cell (.wrap k t) => h.2).hold
      fun _ h => wrapped_le k h).call _
  | .array t n => (scarceItems_serves ((t.scarce_serves H w).mono
      fun h : WithinHeap H w.alloc w.cell (.array t n) => h.2) (fun _ => Nat.le_refl _) n 0).call _
  | .seq .linkedList t => scarceList_serves w ((t.scarce_serves H w).mono fun h => h.2)
      fun h : WithinHeap H w.alloc w.cell (.seq .linkedList t) => h.1
  | .seq .vec t => scarceVec_serves w ((t.scarce_serves H w).mono fun h => h.2)
      fun h : WithinHeap H w.alloc w.cell (.seq .vec t) => h.1
  | .seq .slice t => scarceVec_serves w ((t.scarce_serves H w).mono fun h => h.2)
      fun h : WithinHeap H w.alloc w.cell (.seq .slice t) => h.1
  | .hashMap k v => @scarceHashMap_serves _ _ _ _ _ k.decEq w ((k.scarce_serves H w).mono fun h => h.2.1) _ _
      ((v.scarce_serves H w).mono fun h => h.2.2) _ fun h : WithinHeap H w.alloc w.cell (.hashMap k v) => h.1
  | .hashSet k => @scarceHashSet_serves _ _ _ _ k.decEq w ((k.scarce_serves H w).mono fun h => h.2) _
      fun h : WithinHeap H w.alloc w.cell (.hashSet k) => h.1
  | .option t => (Serves.of _ decBool).bind fun _ =>
      .ite (((t.scarce_serves H w).mono fun h : WithinHeap H w.alloc w.cell (.option t) => h.2).map _) (.of _ _)
  | .result t e => (Serves.of _ decBool).bind fun _ =>
      .ite ((((e.scarce_serves H w).mono fun h : WithinHeap H w.alloc w.cell (.result t e) => h.2.2).mapErr _).map _)
        ((((t.scarce_serves H w).mono fun h : WithinHeap H w.alloc w.cell (.result t e) => h.2.1).mapErr _).map _)
  | .bound t =>
    have h := (t.scarce_serves H w).mono fun h : WithinHeap H w.alloc w.cell (.bound t) => h.2
    (Serves.of _ decU8).bind fun _ =>
      .ite ((h.mapErr _).map _) (.ite ((h.mapErr _).map _) (.ite (.of _ _) (.of _ _)))
  | .range t =>
    have h := (t.scarce_serves H w).mono fun h : WithinHeap H w.alloc w.cell (.range t) => h.2
    (h.bind fun _ => h.map _).call _
  | .rangeInclusive t =>
    have h := (t.scarce_serves H w).mono fun h : WithinHeap H w.alloc w.cell (.rangeInclusive t) => h.2
    (h.bind fun _ => h.map _).call _
  | .lock k t => (((t.scarce_serves H w).mono fun h : WithinHeap H w.alloc w.cell (.lock k t) => h.2).map _).call _
  | .refCell t => (((t.scarce_serves H w).mono fun h : WithinHeap H w.alloc w.cell (.refCell t) => h.2).map _).call _
  | .str k => (Serves.of _ decString).hold fun s (h : 1 ≤ w.cell) => by
      unfold Weights.buffer
      split
      · omega
      · have := Nat.mul_le_mul_right s.val.length h
        omega
  | .cStr k => (Serves.of _ decCString).bind fun s I => by
      obtain ⟨l, h0, h1, h2⟩ := ((Serves.ask (P := 2 ≤ w.cell) fun _ => Nat.le_refl s.val.length).bind
        (f := fun g _ => (Scarce.ask g (s.val.length + 1)).bind fun _ => Scarce.of (pure s))
        (k := fun _ => (Cost.tick (s.val.length + 1)).bind fun _ => Cost.of 0 (pure s)) fun _ =>
          (Serves.ask fun _ => Nat.le_refl _).bind fun _ => .of 0 _) I
      refine ⟨l, h0, fun (h : 2 ≤ w.cell) => Nat.le_trans (h1 h) ?_, h2⟩
      show s.val.length + (s.val.length + 1 + 0) ≤ w.buffer (s.val.length + 1)
      unfold Weights.buffer
      rw [if_neg (by omega)]
      have := Nat.mul_le_mul_right (s.val.length + 1) h
      omega
  | .sizedSlice t n => scarceSized_serves w ((t.scarce_serves H w).mono
      fun h : WithinHeap H w.alloc w.cell (.sizedSlice t n) => h.2) n
  | .tuple fs => ((fs.scarce_serves H w _).mono fun h : WithinHeap H w.alloc w.cell (.tuple fs) => h.2).call _
  | .struct fs => ((fs.scarce_serves H w _).mono fun h : WithinHeap H w.alloc w.cell (.struct fs) => h.2).call _
  | .enum r vs => (Serves.of _ (decRepr r)).bind fun x =>
      (vs.scarce_serves H w none x).mono fun h : WithinHeap H w.alloc w.cell (.enum r vs) => h.2

theorem Fields.scarce_serves (H : HeapOf) (w : Weights) : (fs : Fields) → ∀ e,
    Serves (EverywhereFields (withinHere H w.alloc w.cell) fs) (fun g => fs.scarce H g e) (fs.cost w e)
  | .nil, _ => .of _ _
  | .cons t fs, e => (((t.scarce_serves H w).mono fun h => h.1).mapErr e).bind fun _ =>
      ((fs.scarce_serves H w e).mono fun h => h.2).map _

theorem Variants.scarce_serves (H : HeapOf) (w : Weights) : (vs : Variants) → ∀ p x,
    Serves (EverywhereVariants (withinHere H w.alloc w.cell) vs) (fun g => vs.scarce H g p x) (vs.cost w p x)
  | .nil, _, _ => .of _ _
  | .cons d fs vs, p, x => by
    unfold Variants.scarce Variants.cost
    exact .ite (((fs.scarce_serves H w _).mono fun h => h.1).map _) (((vs.scarce_serves H w _ _).mono fun h => h.2).map _)

end

theorem inline_within (H : HeapOf) (t : Ty) (h : inlineHere t) : withinHere H 0 0 t := by
  unfold inlineHere at h
  unfold withinHere
  split at h <;> first | exact h.elim | skip
  split <;> simp_all

mutual

theorem rate_free : (t : Ty) → rate ⟨0, 0, 0⟩ t = 0
  | .num _ | .bool | .char | .usize | .isize | .nonZero _ | .unit _ | .infallible | .duration | .systemTime _
  | .ipv4 | .ipv6 | .ipAddr | .socketAddrV4 | .socketAddrV6 | .socketAddr | .sizedStr _ | .str _ | .cStr _ => rfl
  | .wrap k t => by cases k <;> simp [rate, rate_free t]
  | .array t n | .sizedSlice t n => by simp [rate, rate_free t]
  | .seq .linkedList t | .seq .vec t | .seq .slice t => by simp [rate, rate_free t]
  | .hashMap k v => by simp [rate, rate_free k, rate_free v]
  | .hashSet k => by simp [rate, rate_free k]
  | .option t | .bound t | .range t | .rangeInclusive t | .lock _ t | .refCell t => by simp [rate, rate_free t]
  | .result t e => by simp [rate, rate_free t, rate_free e]
  | .tuple fs | .struct fs => by simp [rate, rateFields_free fs]
  | .enum _ vs => by simp [rate, rateVariants_free vs]

theorem rateFields_free : (fs : Fields) → rateFields ⟨0, 0, 0⟩ fs = 0
  | .nil => rfl
  | .cons t fs => by simp [rateFields, rate_free t, rateFields_free fs]

theorem rateVariants_free : (vs : Variants) → rateVariants ⟨0, 0, 0⟩ vs = 0
  | .nil => rfl
  | .cons _ fs vs => by simp [rateVariants, rateFields_free fs, rateVariants_free vs]

end

end Oct
