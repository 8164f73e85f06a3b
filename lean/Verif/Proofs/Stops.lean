import Verif.Spec.Stops
import Verif.Proofs.AcceptsTy
import Verif.Proofs.Ends
/- Where the decoders stop. -/
namespace Oct
open Spec
set_option linter.unusedVariables false
variable {α β γ : Type}

/-- A decoder stops as the relation says. -/
def Halts (m : Dec α) (S : List Byte → Stop → Prop) : Prop :=
  ∀ i i' s, m i = (Stop.res s, i') ↔ ∃ bs, Took i bs i' ∧ S bs s

theorem Stop.res_ne_ok {s : Stop} {a : α} : (Stop.res s : Res DecErr α) ≠ .ok a := by
  cases s <;> exact fun h => nomatch h

theorem Stop.res_ne_err {s : Stop} {e : DecErr} : (Stop.res s : Res DecErr α) ≠ .err e := by
  cases s <;> exact fun h => nomatch h

theorem Stop.bind_res {m : Dec α} {f : α → Dec β} {i i' : Input} {s : Stop}
    (h : m i = (Stop.res s, i')) : (m >>= f) i = (Stop.res s, i') := by
  show Dec.bind m f i = _
  unfold Dec.bind
  rw [h]
  cases s <;> rfl

namespace Halts
variable {S T : List Byte → Stop → Prop} {A : List Byte → α → Prop} {R : List Byte → DecErr → Prop}

theorem congr {m : Dec α} (h : Halts m S) (hS : ∀ bs s, S bs s ↔ T bs s) : Halts m T := by
  have e : S = T := by funext bs s; exact propext (hS bs s)
  rw [← e]; exact h

theorem never {m : Dec α} {P : α → Prop} (h : Ends m P (· = .shortInput) (fun _ => False)) :
    Halts m (fun _ _ => False) := by
  intro i i' s
  constructor
  · intro hm
    have := h i
    rw [hm] at this
    cases s with
    | invalidChar => exact this.elim
    | durationOverflow => cases this
    | infallible => cases this
  · rintro ⟨_, _, h⟩
    exact h.elim

theorem pure (a : α) : Halts (Pure.pure a : Dec α) (fun _ _ => False) :=
  never (P := fun _ => True) (Ends.pure trivial)

theorem fail (e : DecErr) : Halts (Dec.fail e : Dec α) (fun _ _ => False) :=
  never (P := fun _ => True) Ends.fail

theorem bind {m : Dec α} {f : α → Dec β} {K : α → List Byte → Stop → Prop} (hp : Parses m A R)
    (hm : Halts m S) (hf : ∀ a, Halts (f a) (K a)) :
    Halts (m >>= f) (fun bs s => S bs s ∨ ∃ a b1 b2, bs = b1 ++ b2 ∧ A b1 a ∧ K a b2 s) := by
  intro i i' s
  have step : ∀ a i1, m i = (.ok a, i1) → (m >>= f) i = f a i1 := by
    intro a i1 h
    show Dec.bind m f i = _
    unfold Dec.bind; rw [h]
  constructor
  · intro h
    cases hq : m i with
    | mk q i1 =>
      cases q with
      | ok a =>
        obtain ⟨b1, t1, hA⟩ := ((hp i i1).1 a).mp hq
        rw [step a i1 hq] at h
        obtain ⟨b2, t2, hK⟩ := (hf a i1 i' s).mp h
        exact ⟨b1 ++ b2, Took.append_iff.mpr ⟨i1, t1, t2⟩, .inr ⟨a, b1, b2, rfl, hA, hK⟩⟩
      | err e =>
        have h' : Dec.bind m f i = _ := h
        unfold Dec.bind at h'
        rw [hq] at h'
        exact absurd (congrArg Prod.fst h').symm Stop.res_ne_err
      | panic p =>
        have h' : Dec.bind m f i = _ := h
        unfold Dec.bind at h'
        rw [hq] at h'
        have e : m i = (Stop.res s, i') := by
          rw [hq]
          cases s <;> cases h' <;> rfl
        obtain ⟨bs, t, hS⟩ := (hm i i' s).mp e
        exact ⟨bs, t, .inl hS⟩
      | ub u =>
        have h' : Dec.bind m f i = _ := h
        unfold Dec.bind at h'
        rw [hq] at h'
        have e : m i = (Stop.res s, i') := by
          rw [hq]
          cases s <;> cases h' <;> rfl
        obtain ⟨bs, t, hS⟩ := (hm i i' s).mp e
        exact ⟨bs, t, .inl hS⟩
  · rintro ⟨bs, t, hS | ⟨a, b1, b2, rfl, hA, hK⟩⟩
    · exact Stop.bind_res ((hm i i' s).mpr ⟨bs, t, hS⟩)
    · obtain ⟨i1, t1, t2⟩ := Took.append_iff.mp t
      rw [step a i1 (((hp i i1).1 a).mpr ⟨b1, t1, hA⟩)]
      exact (hf a i1 i' s).mpr ⟨b2, t2, hK⟩

/-- A pure function after a decoder. -/
theorem map {m : Dec α} (f : α → β) (hm : Halts m S) :
    Halts (m >>= fun a => Pure.pure (f a)) S := by
  intro i i' s
  rw [← hm i i' s]
  constructor
  · intro h
    have h' : Dec.bind m _ i = _ := h
    unfold Dec.bind at h'
    cases hq : m i with
    | mk q i1 =>
      rw [hq] at h'
      cases q with
      | ok a => exact absurd (congrArg Prod.fst h').symm Stop.res_ne_ok
      | err e => exact absurd (congrArg Prod.fst h').symm Stop.res_ne_err
      | panic p => cases s <;> cases h' <;> rfl
      | ub u => cases s <;> cases h' <;> rfl
  · exact Stop.bind_res

theorem mapErr {m : Dec α} (g : DecErr → DecErr) (hm : Halts m S) : Halts (m.mapErr g) S := by
  intro i i' s
  rw [← hm i i' s]
  cases hq : m i with
  | mk q i1 =>
    have hs : m.mapErr g i = (q.mapErr g, i1) := by
      unfold Dec.mapErr; rw [hq]
    rw [hs]
    cases q with
    | ok a => exact .rfl
    | err e =>
      exact ⟨fun h => absurd (congrArg Prod.fst h).symm Stop.res_ne_err,
        fun h => absurd (congrArg Prod.fst h).symm Stop.res_ne_err⟩
    | panic p =>
      constructor <;> intro h <;> cases s <;> cases h <;> rfl
    | ub u =>
      constructor <;> intro h <;> cases s <;> cases h <;> rfl

theorem after {m : Dec α} {f : α → Dec β} {K : α → List Byte → Stop → Prop} (hp : Parses m A R)
    (hm : Halts m (fun _ _ => False)) (hf : ∀ a, Halts (f a) (K a)) :
    Halts (m >>= f) (fun bs s => ∃ a b1 b2, bs = b1 ++ b2 ∧ A b1 a ∧ K a b2 s) :=
  (bind hp hm hf).congr fun _ _ => ⟨fun h => h.resolve_left id, .inr⟩

end Halts

abbrev onlyShort : Panic → Prop := (· = .shortInput)

theorem decUsize_halts : Halts decUsize (fun _ _ => False) :=
  .never (decUsize_ends (Pn := onlyShort) rfl)

theorem decU8_halts : Halts decU8 (fun _ _ => False) := .never (decU8_ends (Pn := onlyShort) rfl)

theorem decBool_halts : Halts decBool (fun _ _ => False) :=
  .never (decBool_ends (Pn := onlyShort) rfl)

theorem decNum_halts (n : Nat) : Halts (decNum n) (fun _ _ => False) :=
  .never (decNum_ends (Pn := onlyShort) rfl n)

theorem decRepr_halts (r : Repr) : Halts (decRepr r) (fun _ _ => False) :=
  .never (decRepr_ends (Pn := onlyShort) rfl r)

section
variable {A : List Byte → α → Prop} {R : List Byte → DecErr → Prop} {dec : Dec α}
variable {S : List Byte → Stop → Prop}
variable {B : List Byte → β → Prop} {Q : List Byte → DecErr → Prop} {dec' : Dec β}
variable {T : List Byte → Stop → Prop}

theorem decItems_halts (hp : Parses dec A R) (h : Halts dec S) : (n i : Nat) →
    Halts (decItems dec n i) (ItemStops A S n)
  | 0, i => (Halts.pure _).congr fun bs s =>
    ⟨False.elim, fun ⟨l, _, _, hl, _⟩ => absurd hl (Nat.not_lt_zero _)⟩
  | n + 1, i => by
    refine (Halts.bind (hp.mapErr fun e => .badItem (.item i e)) (h.mapErr _) fun v =>
      (decItems_halts hp h n (i + 1)).map fun vs =>
        (⟨v :: vs.val, by simp [vs.property]⟩ : Items α (n + 1))).congr fun bs s => ?_
    constructor
    · rintro (hS | ⟨a, b1, _, rfl, hA, l, b2, b3, hl, rfl, hE, hS⟩)
      · exact ⟨[], [], bs, Nat.succ_pos _, rfl, .nil, hS⟩
      · exact ⟨a :: l, b1 ++ b2, b3, Nat.succ_lt_succ hl, (List.append_assoc _ _ _).symm, .cons hA hE,
          hS⟩
    · rintro ⟨l, b1, b2, hl, rfl, hE, hS⟩
      cases hE with
      | nil => exact .inl hS
      | @cons b bs a l hA hE =>
        exact .inr ⟨a, b, bs ++ b2, List.append_assoc _ _ _, hA, l, bs, b2, Nat.lt_of_succ_lt_succ hl,
          rfl, hE, hS⟩

theorem decSeq_halts (hp : Parses dec A R) (h : Halts dec S) :
    Halts (decSeq dec) (fun bs s => ∃ n r, n ≤ 65535 ∧ bs = leBytes 2 n ++ r ∧ ItemStops A S n r s) := by
  refine (Halts.after decUsize_parses decUsize_halts fun n =>
    (decItems_halts hp h n 0).map fun vs : Items α n => vs.val).congr fun bs s => ?_
  constructor
  · rintro ⟨n, _, r, rfl, ⟨hn, rfl⟩, hS⟩
    exact ⟨n, r, hn, rfl, hS⟩
  · rintro ⟨n, r, hn, rfl, hS⟩
    exact ⟨n, _, r, rfl, ⟨hn, rfl⟩, hS⟩

theorem decSizedSlice_halts (hp : Parses dec A R) (h : Halts dec S) (n : Nat) :
    Halts (decSizedSlice dec n) (fun bs s => ∃ k r, k ≤ 65535 ∧ k ≤ n ∧ bs = leBytes 2 k ++ r ∧
      ItemStops A S n r s) := by
  have h1 : ∀ k : Nat, Halts (if k > n then Dec.fail (.badLength (.length n k)) else do
      let vs ← decItems dec n 0
      pure (⟨vs.val.take k, by simp [List.length_take, vs.property]; omega⟩ :
        {l : List α // l.length ≤ n})) (fun bs s => k ≤ n ∧ ItemStops A S n bs s) := by
    intro k
    by_cases hk : k > n
    · rw [if_pos hk]
      exact (Halts.fail _).congr fun bs s => ⟨False.elim, fun h => absurd h.1 (by omega)⟩
    · rw [if_neg hk]
      exact ((decItems_halts hp h n 0).map _).congr fun bs s => ⟨fun h => ⟨by omega, h⟩, And.right⟩
  refine (Halts.after decUsize_parses decUsize_halts h1).congr fun bs s => ?_
  constructor
  · rintro ⟨k, _, r, rfl, ⟨hk, rfl⟩, hn, hS⟩
    exact ⟨k, r, hk, hn, rfl, hS⟩
  · rintro ⟨k, r, hk, hn, rfl, hS⟩
    exact ⟨k, _, r, rfl, ⟨hk, rfl⟩, hn, hS⟩

theorem two_halts (hp : Parses dec A R) (h : Halts dec S) (h' : Halts dec' T) (f : α → β → γ) :
    Halts (dec >>= fun a => dec' >>= fun b => pure (f a b)) (PartStops A S T) :=
  Halts.bind hp h fun a => h'.map (f a)

theorem decMapLoop_halts [DecidableEq α] (hp : Parses dec A R) (h : Halts dec S)
    (hp' : Parses dec' B Q) (h' : Halts dec' T) : (n i : Nat) → (m : MapVal α β) →
    Halts (decMapLoop dec dec' n i m)
      (ItemStops (fun b (p : α × β) => Both A B b p.1 p.2) (PartStops A S T) n)
  | 0, i, m => (Halts.pure _).congr fun bs s =>
    ⟨False.elim, fun ⟨l, _, _, hl, _⟩ => absurd hl (Nat.not_lt_zero _)⟩
  | n + 1, i, m => by
    refine (Halts.bind (hp.mapErr fun e => .badItem (.item i e)) (h.mapErr _) fun k =>
      Halts.bind (hp'.mapErr fun e => .badItem (.item i e)) (h'.mapErr _) fun v =>
        decMapLoop_halts hp h hp' h' n (i + 1) _).congr fun bs s => ?_
    constructor
    · rintro (hS | ⟨k, b1, _, rfl, hA, hT | ⟨v, b2, _, rfl, hB, l, b3, b4, hl, rfl, hE, hS⟩⟩)
      · exact ⟨[], [], bs, Nat.succ_pos _, rfl, .nil, .inl hS⟩
      · exact ⟨[], [], _, Nat.succ_pos _, rfl, .nil, .inr ⟨k, b1, _, rfl, hA, hT⟩⟩
      · exact ⟨(k, v) :: l, (b1 ++ b2) ++ b3, b4, Nat.succ_lt_succ hl, by simp,
          .cons ⟨b1, b2, rfl, hA, hB⟩ hE, hS⟩
    · rintro ⟨l, b1, b2, hl, rfl, hE, hS⟩
      cases hE with
      | nil =>
        rcases hS with hS | ⟨k, b3, b4, rfl, hA, hT⟩
        · exact .inl hS
        · exact .inr ⟨k, b3, b4, rfl, hA, .inl hT⟩
      | @cons b bs p l hP hE =>
        obtain ⟨b3, b4, rfl, hA, hB⟩ := hP
        exact .inr ⟨p.1, b3, b4 ++ (bs ++ b2), by simp, hA, .inr ⟨p.2, b4, bs ++ b2, rfl, hB,
          l, bs, b2, Nat.lt_of_succ_lt_succ hl, rfl, hE, hS⟩⟩

theorem decHashMap_halts [DecidableEq α] (hp : Parses dec A R) (h : Halts dec S)
    (hp' : Parses dec' B Q) (h' : Halts dec' T) :
    Halts (decHashMap dec dec') (fun bs s => ∃ n r, n ≤ 65535 ∧ bs = leBytes 2 n ++ r ∧
      ItemStops (fun b (p : α × β) => Both A B b p.1 p.2) (PartStops A S T) n r s) := by
  refine (Halts.after decUsize_parses decUsize_halts fun n =>
    decMapLoop_halts hp h hp' h' n 0 ⟨[], List.nodup_nil⟩).congr fun bs s => ?_
  constructor
  · rintro ⟨n, _, r, rfl, ⟨hn, rfl⟩, hS⟩
    exact ⟨n, r, hn, rfl, hS⟩
  · rintro ⟨n, r, hn, rfl, hS⟩
    exact ⟨n, _, r, rfl, ⟨hn, rfl⟩, hS⟩

theorem decSetLoop_halts [DecidableEq α] (hp : Parses dec A R) (h : Halts dec S) :
    (n i : Nat) → (m : SetVal α) → Halts (decSetLoop dec n i m) (ItemStops A S n)
  | 0, i, m => (Halts.pure _).congr fun bs s =>
    ⟨False.elim, fun ⟨l, _, _, hl, _⟩ => absurd hl (Nat.not_lt_zero _)⟩
  | n + 1, i, m => by
    refine (Halts.bind (hp.mapErr fun e => .badItem (.item i e)) (h.mapErr _) fun v =>
      decSetLoop_halts hp h n (i + 1) _).congr fun bs s => ?_
    constructor
    · rintro (hS | ⟨a, b1, _, rfl, hA, l, b2, b3, hl, rfl, hE, hS⟩)
      · exact ⟨[], [], bs, Nat.succ_pos _, rfl, .nil, hS⟩
      · exact ⟨a :: l, b1 ++ b2, b3, Nat.succ_lt_succ hl, (List.append_assoc _ _ _).symm, .cons hA hE,
          hS⟩
    · rintro ⟨l, b1, b2, hl, rfl, hE, hS⟩
      cases hE with
      | nil => exact .inl hS
      | @cons b bs a l hA hE =>
        exact .inr ⟨a, b, bs ++ b2, List.append_assoc _ _ _, hA, l, bs, b2, Nat.lt_of_succ_lt_succ hl,
          rfl, hE, hS⟩

theorem decHashSet_halts [DecidableEq α] (hp : Parses dec A R) (h : Halts dec S) :
    Halts (decHashSet dec) (fun bs s => ∃ n r, n ≤ 65535 ∧ bs = leBytes 2 n ++ r ∧
      ItemStops A S n r s) := by
  refine (Halts.after decUsize_parses decUsize_halts fun n =>
    decSetLoop_halts hp h n 0 ⟨[], List.nodup_nil⟩).congr fun bs s => ?_
  constructor
  · rintro ⟨n, _, r, rfl, ⟨hn, rfl⟩, hS⟩
    exact ⟨n, r, hn, rfl, hS⟩
  · rintro ⟨n, r, hn, rfl, hS⟩
    exact ⟨n, _, r, rfl, ⟨hn, rfl⟩, hS⟩

theorem decOption_halts (h : Halts dec S) :
    Halts (decOption dec) (fun bs s => ∃ b r, b ≠ 0 ∧ bs = b :: r ∧ S r s) := by
  have h1 : ∀ b : Bool, Halts (if b = true then dec >>= fun v => pure (some v) else pure none)
      (fun bs s => b = true ∧ S bs s) := by
    intro b
    cases b with
    | true =>
      rw [if_pos rfl]
      exact (h.map some).congr fun _ _ => ⟨fun h => ⟨rfl, h⟩, And.right⟩
    | false =>
      rw [if_neg (by simp)]
      exact (Halts.pure none).congr fun _ _ => ⟨False.elim, fun h => nomatch h.1⟩
  refine (Halts.after decBool_parses decBool_halts h1).congr fun bs s => ?_
  constructor
  · rintro ⟨_, _, r, rfl, ⟨b, rfl, hb⟩, rfl, hS⟩
    exact ⟨b, r, hb.mp rfl, rfl, hS⟩
  · rintro ⟨b, r, hb, rfl, hS⟩
    exact ⟨true, [b], r, rfl, ⟨b, rfl, by simp [hb]⟩, rfl, hS⟩

theorem decResult_halts (h : Halts dec S) (h' : Halts dec' T) :
    Halts (decResult dec dec') (fun bs s => ∃ b r, bs = b :: r ∧ (b = 0 ∧ S r s ∨ b ≠ 0 ∧ T r s)) := by
  have h1 : ∀ b : Bool, Halts (if b = true then dec'.mapErr .badField >>= fun v => pure (.err v)
      else dec.mapErr .badField >>= fun v => pure (.ok v) : Dec (ResultVal α β))
      (fun bs s => b = false ∧ S bs s ∨ b = true ∧ T bs s) := by
    intro b
    cases b with
    | true =>
      rw [if_pos rfl]
      refine ((h'.mapErr .badField).map ResultVal.err).congr fun _ _ => ?_
      simp
    | false =>
      rw [if_neg (by simp)]
      refine ((h.mapErr .badField).map ResultVal.ok).congr fun _ _ => ?_
      simp
  refine (Halts.after decBool_parses decBool_halts h1).congr fun bs s => ?_
  constructor
  · rintro ⟨_, _, r, rfl, ⟨b, rfl, hb⟩, ⟨rfl, hS⟩ | ⟨rfl, hS⟩⟩
    · exact ⟨b, r, rfl, .inl ⟨by simpa using hb, hS⟩⟩
    · exact ⟨b, r, rfl, .inr ⟨by simpa using hb, hS⟩⟩
  · rintro ⟨b, r, rfl, ⟨rfl, hS⟩ | ⟨hb, hS⟩⟩
    · exact ⟨false, [0], r, rfl, ⟨0, rfl, by simp⟩, .inl ⟨rfl, hS⟩⟩
    · exact ⟨true, [b], r, rfl, ⟨b, rfl, by simp [hb]⟩, .inr ⟨rfl, hS⟩⟩

theorem decBound_halts (h : Halts dec S) :
    Halts (decBound dec) (fun bs s => ∃ b r, (b = 0 ∨ b = 1) ∧ bs = b :: r ∧ S r s) := by
  have h1 : ∀ d : Nat, Halts (if d = 0 then dec.mapErr .badField >>= fun b => pure (.included b)
      else if d = 1 then dec.mapErr .badField >>= fun b => pure (.excluded b)
      else if d = 2 then pure .unbounded else Dec.fail (.unassigned d) : Dec (BoundVal α))
      (fun bs s => (d = 0 ∨ d = 1) ∧ S bs s) := by
    intro d
    match d with
    | 0 =>
      refine ((h.mapErr .badField).map BoundVal.included).congr fun _ _ => ?_
      simp
    | 1 =>
      refine ((h.mapErr .badField).map BoundVal.excluded).congr fun _ _ => ?_
      simp
    | 2 =>
      refine (Halts.pure BoundVal.unbounded).congr fun _ _ => ?_
      simp
    | d + 3 =>
      rw [if_neg (by omega), if_neg (by omega), if_neg (by omega)]
      refine (Halts.fail _).congr fun _ _ => ?_
      simp
  refine (Halts.after decU8_parses decU8_halts h1).congr fun bs s => ?_
  constructor
  · rintro ⟨_, _, r, rfl, ⟨b, rfl, rfl⟩, hb, hS⟩
    refine ⟨b, r, ?_, rfl, hS⟩
    rcases hb with hb | hb
    · exact .inl (byte_eq_of_toNat b 0 (by omega) hb)
    · exact .inr (byte_eq_of_toNat b 1 (by omega) hb)
  · rintro ⟨b, r, hb, rfl, hS⟩
    refine ⟨b.toNat, [b], r, rfl, ⟨b, rfl, rfl⟩, ?_, hS⟩
    rcases hb with rfl | rfl
    · exact .inl rfl
    · exact .inr rfl

end

theorem decChar_halts : Halts decChar (Stops .char) := by
  have h1 : ∀ x : Nat, Halts (if x ≤ 0xD7FF ∨ (0xDE00 ≤ x ∧ x ≤ 0x10FFFF) then
      if h : x.isValidChar then (pure (Char.ofNatAux x h) : Dec Char) else Dec.ub .invalidChar
      else Dec.fail (.char x)) (fun bs s => (0xDE00 ≤ x ∧ x ≤ 0xDFFF) ∧ bs = [] ∧ s = .invalidChar) := by
    intro x
    by_cases h1 : x ≤ 0xD7FF ∨ (0xDE00 ≤ x ∧ x ≤ 0x10FFFF)
    · rw [if_pos h1]
      by_cases h2 : x.isValidChar
      · rw [dif_pos h2]
        refine (Halts.pure _).congr fun bs s => ⟨False.elim, ?_⟩
        rintro ⟨h, _⟩
        rcases h2 with h2 | h2 <;> omega
      · rw [dif_neg h2]
        intro i i' s
        have hx : 0xDE00 ≤ x ∧ x ≤ 0xDFFF := by
          unfold Nat.isValidChar at h2
          omega
        constructor
        · intro h
          have h' : ((.ub .invalidChar, i) : Res DecErr Char × Input) = (Stop.res s, i') := h
          refine ⟨[], Took.nil_iff.mpr ?_, hx, rfl, ?_⟩
          · exact (congrArg Prod.snd h').symm
          · cases s
            · rfl
            · cases congrArg Prod.fst h'
            · cases congrArg Prod.fst h'
        · rintro ⟨_, ht, _, rfl, rfl⟩
          rw [Took.nil_iff.mp ht]
          rfl
    · rw [if_neg h1]
      refine (Halts.fail _).congr fun bs s => ⟨False.elim, ?_⟩
      rintro ⟨h, _⟩
      omega
  refine (Halts.after (decNum_parses 4) (decNum_halts 4) h1).congr fun bs s => ?_
  constructor
  · rintro ⟨x, _, _, rfl, ⟨hx, rfl⟩, h, rfl, rfl⟩
    exact ⟨x, h, by simp, rfl⟩
  · rintro ⟨x, h, rfl, rfl⟩
    exact ⟨x, _, [], (List.append_nil _).symm, ⟨by omega, rfl⟩, h, rfl, rfl⟩


theorem durationNew_none (x n : Nat) (hn : n < 2 ^ 32) :
    durationNew x n = none ↔ 2 ^ 64 * nanosPerSec ≤ x * nanosPerSec + n := by
  have e : nanosPerSec = 1000000000 := rfl
  unfold durationNew
  split <;> rename_i h1
  · refine ⟨(fun h => by cases h), fun h => ?_⟩
    rw [e] at h1 h
    omega
  · rw [e] at h1 ⊢
    refine ⟨fun _ => ?_, fun _ => rfl⟩
    omega

theorem decDuration_halts : Halts decDuration (Stops .duration) := by
  have h1 : ∀ x n : Nat, Halts (match durationNew x n with
      | some d => pure d
      | none => Dec.panic .durationOverflow)
      (fun bs s => durationNew x n = none ∧ bs = [] ∧ s = .durationOverflow) := by
    intro x n
    cases hd : durationNew x n with
    | some d => exact (Halts.pure d).congr fun bs s => ⟨False.elim, fun h => nomatch h.1⟩
    | none =>
      intro i i' s
      constructor
      · intro h
        have h' : ((.panic .durationOverflow, i) : Res DecErr DurationVal × Input) = (Stop.res s, i') := h
        refine ⟨[], Took.nil_iff.mpr (congrArg Prod.snd h').symm, rfl, rfl, ?_⟩
        cases s
        · cases congrArg Prod.fst h'
        · rfl
        · cases congrArg Prod.fst h'
      · rintro ⟨_, ht, _, rfl, rfl⟩
        rw [Took.nil_iff.mp ht]
        rfl
  refine (Halts.after (decNum_parses 8) (decNum_halts 8) fun x =>
    Halts.after (decNum_parses 4) (decNum_halts 4) fun n => h1 x n).congr fun bs s => ?_
  constructor
  · rintro ⟨x, _, _, rfl, ⟨hx, rfl⟩, n, _, _, rfl, ⟨hn, rfl⟩, hd, rfl, rfl⟩
    exact ⟨x, n, hx, hn, by rw [List.append_nil], (durationNew_none x n hn).mp hd, rfl⟩
  · rintro ⟨x, n, hx, hn, rfl, hd, rfl⟩
    exact ⟨x, _, _, rfl, ⟨hx, rfl⟩, n, _, [], (List.append_nil _).symm, ⟨hn, rfl⟩,
      (durationNew_none x n hn).mpr hd, rfl, rfl⟩

theorem infallible_halts : Halts (Ty.decode .infallible) (Stops .infallible) := by
  intro i i' s
  constructor
  · intro h
    have h' : ((.panic .infallible, i) : Res DecErr Empty × Input) = (Stop.res s, i') := h
    refine ⟨[], Took.nil_iff.mpr (congrArg Prod.snd h').symm, rfl, ?_⟩
    cases s
    · cases congrArg Prod.fst h'
    · cases congrArg Prod.fst h'
    · rfl
  · rintro ⟨_, ht, rfl, rfl⟩
    rw [Took.nil_iff.mp ht]
    rfl

theorem stopsVariants_disc (ex : List (Option Nat)) : (vs : Variants) → (j : Nat) → (x : Int) →
    (bs : List Byte) → (s : Stop) → StopsVariants ex vs j x bs s →
    ∃ k < variantCount vs, x = discOf ex (j + k)
  | .nil, _, _, _, _, h => h.elim
  | .cons d fs vs, j, x, bs, s, .inl h => ⟨0, Nat.succ_pos _, h.1⟩
  | .cons d fs vs, j, x, bs, s, .inr h => by
    obtain ⟨k, hk, e⟩ := stopsVariants_disc ex vs (j + 1) x bs s h
    exact ⟨k + 1, Nat.succ_lt_succ hk, by rw [e]; congr 2; omega⟩

mutual

theorem Ty.decode_halts : (t : Ty) → t.WF → Halts t.decode (Stops t)
  | .num k, _ => .never (Ty.decode_ends (Pn := onlyShort) rfl (.num k) trivial)
  | .bool, _ => .never (decBool_ends (Pn := onlyShort) rfl)
  | .usize, _ => .never (decUsize_ends (Pn := onlyShort) rfl)
  | .isize, _ => .never (decIsize_ends (Pn := onlyShort) rfl)
  | .nonZero r, _ => .never (decNonZero_ends (Pn := onlyShort) rfl r)
  | .ipv4, _ => .never (decIpv4_ends (Pn := onlyShort) rfl)
  | .ipv6, _ => .never (decIpv6_ends (Pn := onlyShort) rfl)
  | .ipAddr, _ => .never (decIpAddr_ends (Pn := onlyShort) rfl)
  | .socketAddrV4, _ => .never (decSocketAddrV4_ends (Pn := onlyShort) rfl)
  | .socketAddrV6, _ => .never (decSocketAddrV6_ends (Pn := onlyShort) rfl)
  | .socketAddr, _ => .never (decSocketAddr_ends (Pn := onlyShort) rfl)
  | .str _, _ => .never (decString_ends (Pn := onlyShort) rfl)
  | .cStr _, _ => .never (decCString_ends (Pn := onlyShort) rfl)
  | .sizedStr n, _ => .never (decSizedStr_ends (Pn := onlyShort) rfl n)
  | .systemTime p, _ => .never (decSystemTime_ends (Pn := onlyShort) rfl p)
  | .unit _, _ => .pure ()
  | .char, _ => decChar_halts
  | .duration, _ => decDuration_halts
  | .infallible, _ => infallible_halts
  | .wrap _ t, hw => Ty.decode_halts t hw
  | .array t n, hw => decItems_halts (Ty.decode_parses t hw) (Ty.decode_halts t hw) n 0
  | .seq _ t, hw => decSeq_halts (Ty.decode_parses t hw) (Ty.decode_halts t hw)
  | .hashMap k v, hw => @decHashMap_halts _ _ _ _ _ _ _ _ _ _ k.decEq (Ty.decode_parses k hw.1)
      (Ty.decode_halts k hw.1) (Ty.decode_parses v hw.2) (Ty.decode_halts v hw.2)
  | .hashSet k, hw =>
    @decHashSet_halts _ _ _ _ _ k.decEq (Ty.decode_parses k hw) (Ty.decode_halts k hw)
  | .option t, hw => decOption_halts (Ty.decode_halts t hw)
  | .result t e, hw => decResult_halts (Ty.decode_halts t hw.1) (Ty.decode_halts e hw.2)
  | .bound t, hw => decBound_halts (Ty.decode_halts t hw)
  | .range t, hw => two_halts (Ty.decode_parses t hw) (Ty.decode_halts t hw) (Ty.decode_halts t hw) _
  | .rangeInclusive t, hw =>
    two_halts (Ty.decode_parses t hw) (Ty.decode_halts t hw) (Ty.decode_halts t hw) _
  | .lock _ t, hw => (Ty.decode_halts t hw).map _
  | .refCell t, hw => (Ty.decode_halts t hw).map _
  | .sizedSlice t n, hw => decSizedSlice_halts (Ty.decode_parses t hw) (Ty.decode_halts t hw) n
  | .tuple fs, hw => Fields.decode_halts fs id hw
  | .struct fs, hw => Fields.decode_halts fs DecErr.toGeneric hw
  | .enum r vs, hw => by
    refine (Halts.after (decRepr_parses r) (decRepr_halts r) fun x =>
      Variants.decode_halts vs none (explicitDiscs vs) 0 x (by simp) (by simp) hw.1 hw.2.2).congr
        fun bs s => ?_
    constructor
    · rintro ⟨x, _, w, rfl, ⟨h1, h2, rfl⟩, h⟩
      exact ⟨x, w, h1, h2, rfl, h⟩
    · rintro ⟨x, w, h1, h2, rfl, h⟩
      exact ⟨x, _, w, rfl, ⟨h1, h2, rfl⟩, h⟩

theorem Fields.decode_halts : (fs : Fields) → (g : DecErr → DecErr) → fs.WF →
    Halts (fs.decode g) (StopsFields fs)
  | .nil, g, _ => .pure ()
  | .cons t fs, g, hw => two_halts ((Ty.decode_parses t hw.1).mapErr g)
      ((Ty.decode_halts t hw.1).mapErr g) (Fields.decode_halts fs g hw.2) (fun a b => (a, b))

theorem Variants.decode_halts : (vs : Variants) → (prev : Option Nat) → (ex : List (Option Nat)) →
    (j : Nat) → (x : Int) → ex.drop j = explicitDiscs vs →
    (prev = if j = 0 then none else some (discOf ex (j - 1))) → (vs.discs prev).Nodup → vs.WF →
    Halts (vs.decode prev x) (StopsVariants ex vs j x)
  | .nil, prev, ex, j, x, _, _, _, _ => .fail _
  | .cons d fs vs, prev, ex, j, x, h, hp, hn, hw => by
    have hd : discOf ex j = nextDisc prev d := by
      rw [hp]
      apply discOf_step
      have := congrArg (·[0]?) h
      simpa [explicitDiscs] using this
    have hdrop : ex.drop (j + 1) = explicitDiscs vs := by
      have := congrArg List.tail h
      simpa [explicitDiscs] using this
    simp only [Variants.discs, List.nodup_cons] at hn
    have hds := discs_eq vs (some (nextDisc prev d)) ex (j + 1) hdrop (by simp [hd])
    have hnot : ∀ k < variantCount vs, discOf ex (j + 1 + k) ≠ nextDisc prev d := by
      intro k hk e
      apply hn.1
      rw [hds]
      exact List.mem_map.mpr ⟨k, List.mem_range.mpr hk, e⟩
    have ihv := Variants.decode_halts vs (some (nextDisc prev d)) ex (j + 1) x hdrop
      (by simp [hd]) hn.2 hw.2
    have ihf := Fields.decode_halts fs (fun e => .badField e.toGeneric) hw.1
    show Halts (if x = (nextDisc prev d : Int) then _ else _) _
    by_cases hx : x = (nextDisc prev d : Int)
    · rw [if_pos hx]
      refine (ihf.map Sum.inl).congr fun bs s => ?_
      constructor
      · intro hS; exact .inl ⟨by rw [hd]; exact hx, hS⟩
      · rintro (⟨_, hS⟩ | hS)
        · exact hS
        · obtain ⟨k, hk, e⟩ := stopsVariants_disc ex vs (j + 1) x bs s hS
          exact absurd (by omega : discOf ex (j + 1 + k) = nextDisc prev d) (hnot k hk)
    · rw [if_neg hx]
      refine (ihv.map Sum.inr).congr fun bs s => ?_
      constructor
      · exact .inr
      · rintro (⟨e, _⟩ | hS)
        · rw [hd] at e; exact absurd e hx
        · exact hS

end


/-! Which types can be decoded at all, and which can stop. -/

theorem each_replicate {α : Type} {A : List Byte → α → Prop} {b : List Byte} {a : α} (h : A b a) :
    (n : Nat) → ∃ bs, Each A bs (List.replicate n a)
  | 0 => ⟨[], .nil⟩
  | n + 1 => by
    obtain ⟨bs, hb⟩ := each_replicate h n
    exact ⟨b ++ bs, .cons h hb⟩

theorem leBytes2_zero : leBytes 2 0 = [0, 0] := rfl

mutual

theorem decodable_iff : (t : Ty) → t.WF → (Decodable t ↔ ∃ bs v, Accepts t bs v)
  | .num k, _ => ⟨fun _ => ⟨_, (0 : BitVec (8 * k.bytes)), rfl⟩, fun _ => trivial⟩
  | .bool, _ => ⟨fun _ => ⟨[0], false, 0, rfl, by decide⟩, fun _ => trivial⟩
  | .char, _ => ⟨fun _ => ⟨_, 'a', rfl⟩, fun _ => trivial⟩
  | .usize, _ => ⟨fun _ => ⟨_, (0 : Nat), by decide, rfl⟩, fun _ => trivial⟩
  | .isize, _ => ⟨fun _ => ⟨_, (0 : Int), by decide, rfl⟩, fun _ => trivial⟩
  | .nonZero r, _ => ⟨fun _ => by
      have h : (r.InRange 1 ∧ (1 : Int) ≠ 0) ∧ ReprEncodable r 1 := by
        cases r with
        | int k => cases k <;> decide
        | usize => decide
        | isize => decide
      exact ⟨_, ⟨1, h.1⟩, h.2, rfl⟩, fun _ => trivial⟩
  | .unit _, _ => ⟨fun _ => ⟨[], (), rfl⟩, fun _ => trivial⟩
  | .infallible, _ => ⟨False.elim, fun ⟨_, v, _⟩ => nomatch v⟩
  | .wrap _ t, hw => decodable_iff t hw
  | .array t n, hw => by
    constructor
    · rintro (h | h)
      · subst h
        exact ⟨[], ⟨[], rfl⟩, .nil⟩
      · obtain ⟨b, v, h⟩ := (decodable_iff t hw).mp h
        obtain ⟨bs, hb⟩ := each_replicate h n
        exact ⟨bs, ⟨_, List.length_replicate⟩, hb⟩
    · rintro ⟨bs, ⟨l, hl⟩, h⟩
      cases n with
      | zero => exact .inl rfl
      | succ n =>
        match l, hl, h with
        | a :: l, _, .cons hA _ => exact .inr ((decodable_iff t hw).mpr ⟨_, _, hA⟩)
  | .seq _ t, _ => ⟨fun _ => ⟨[0, 0], ([] : List t.Val), [], Nat.zero_le _, leBytes2_zero.symm, .nil⟩, fun _ => trivial⟩
  | .hashMap k v, _ => ⟨fun _ => ⟨[0, 0], ⟨[], List.nodup_nil⟩, [], [], Nat.zero_le _, leBytes2_zero.symm, .nil, rfl,
      (fun _ h => nomatch h)⟩, fun _ => trivial⟩
  | .hashSet k, _ => ⟨fun _ => ⟨[0, 0], ⟨[], List.nodup_nil⟩, ([] : List k.Val), [], Nat.zero_le _, leBytes2_zero.symm, .nil, rfl⟩,
      fun _ => trivial⟩
  | .option t, _ => ⟨fun _ => ⟨[0], none, rfl⟩, fun _ => trivial⟩
  | .result t e, hw => by
    constructor
    · rintro (h | h)
      · obtain ⟨b, v, h⟩ := (decodable_iff t hw.1).mp h
        exact ⟨0 :: b, .ok v, b, rfl, h⟩
      · obtain ⟨b, v, h⟩ := (decodable_iff e hw.2).mp h
        exact ⟨1 :: b, .err v, 1, b, by decide, rfl, h⟩
    · rintro ⟨bs, v, h⟩
      match v, h with
      | .ok v, ⟨r, _, h⟩ => exact .inl ((decodable_iff t hw.1).mpr ⟨_, _, h⟩)
      | .err v, ⟨_, r, _, _, h⟩ => exact .inr ((decodable_iff e hw.2).mpr ⟨_, _, h⟩)
  | .bound t, _ => ⟨fun _ => ⟨[2], .unbounded, rfl⟩, fun _ => trivial⟩
  | .range t, hw => by
    constructor
    · intro h
      obtain ⟨b, v, h⟩ := (decodable_iff t hw).mp h
      exact ⟨b ++ b, ⟨v, v⟩, b, b, rfl, h, h⟩
    · rintro ⟨_, v, b1, b2, _, h, _⟩
      exact (decodable_iff t hw).mpr ⟨_, _, h⟩
  | .rangeInclusive t, hw => by
    constructor
    · intro h
      obtain ⟨b, v, h⟩ := (decodable_iff t hw).mp h
      exact ⟨b ++ b, ⟨v, v, false⟩, rfl, b, b, rfl, h, h⟩
    · rintro ⟨_, v, _, b1, b2, _, h, _⟩
      exact (decodable_iff t hw).mpr ⟨_, _, h⟩
  | .lock _ t, hw => by
    constructor
    · intro h
      obtain ⟨b, v, h⟩ := (decodable_iff t hw).mp h
      exact ⟨b, ⟨false, v⟩, rfl, h⟩
    · rintro ⟨_, v, _, h⟩
      exact (decodable_iff t hw).mpr ⟨_, _, h⟩
  | .refCell t, hw => by
    constructor
    · intro h
      obtain ⟨b, v, h⟩ := (decodable_iff t hw).mp h
      exact ⟨b, ⟨false, v⟩, rfl, h⟩
    · rintro ⟨_, v, _, h⟩
      exact (decodable_iff t hw).mpr ⟨_, _, h⟩
  | .duration, _ => ⟨fun _ => ⟨_, ⟨0, 0, by decide⟩, 0, 0, by decide, by decide, rfl, rfl⟩, fun _ => trivial⟩
  | .systemTime p, _ =>
    ⟨fun _ => ⟨_, ⟨0, p.lo_le, p.le_hi⟩, 0, by decide, rfl, rfl⟩, fun _ => trivial⟩
  | .ipv4, _ => ⟨fun _ => ⟨_, ⟨[0, 0, 0, 0], rfl⟩, rfl⟩, fun _ => trivial⟩
  | .ipv6, _ => ⟨fun _ => ⟨_, ⟨List.replicate 16 0, rfl⟩, rfl⟩, fun _ => trivial⟩
  | .ipAddr, _ => ⟨fun _ => ⟨_, .v4 ⟨[0, 0, 0, 0], rfl⟩, rfl⟩, fun _ => trivial⟩
  | .socketAddrV4, _ => ⟨fun _ => ⟨_, ⟨⟨[0, 0, 0, 0], rfl⟩, 0⟩, rfl⟩, fun _ => trivial⟩
  | .socketAddrV6, _ => ⟨fun _ => ⟨_, ⟨⟨List.replicate 16 0, rfl⟩, 0, 0, 0⟩, rfl⟩, fun _ => trivial⟩
  | .socketAddr, _ => ⟨fun _ => ⟨_, .v4 ⟨⟨[0, 0, 0, 0], rfl⟩, 0⟩, rfl⟩, fun _ => trivial⟩
  | .str _, _ => ⟨fun _ => ⟨_, ⟨[], by decide⟩, by decide, rfl⟩, fun _ => trivial⟩
  | .cStr _, _ => ⟨fun _ => ⟨_, ⟨[], by decide⟩, by decide, rfl⟩, fun _ => trivial⟩
  | .sizedStr n, _ => ⟨fun _ => ⟨_, ⟨[], rfl, Nat.zero_le _⟩, Nat.zero_le _, rfl⟩, fun _ => trivial⟩
  | .sizedSlice t n, hw => by
    constructor
    · intro h
      have : ∃ (l : List t.Val) (r : List Byte), l.length = n ∧ Each (Accepts t) r l := by
        rcases h with h | h
        · exact ⟨[], [], h.symm, .nil⟩
        · obtain ⟨b, v, h⟩ := (decodable_iff t hw).mp h
          obtain ⟨bs, hb⟩ := each_replicate h n
          exact ⟨_, bs, List.length_replicate, hb⟩
      obtain ⟨l, r, hl, hE⟩ := this
      exact ⟨_, ⟨[], Nat.zero_le _⟩, l, r, hl, Nat.zero_le _, rfl, hE, List.nil_prefix⟩
    · rintro ⟨bs, v, l, r, hl, _, _, h, _⟩
      cases n with
      | zero => exact .inl rfl
      | succ n =>
        match l, hl, h with
        | a :: l, _, .cons hA _ => exact .inr ((decodable_iff t hw).mpr ⟨_, _, hA⟩)
  | .tuple fs, hw => decodableFields_iff fs hw
  | .struct fs, hw => decodableFields_iff fs hw
  | .enum r vs, hw => decodableVariants_iff r (explicitDiscs vs) vs 0 hw.2.2

theorem decodableFields_iff : (fs : Fields) → fs.WF →
    (DecodableFields fs ↔ ∃ bs v, AcceptsFields fs bs v)
  | .nil, _ => ⟨fun _ => ⟨[], (), rfl⟩, fun _ => trivial⟩
  | .cons t fs, hw => by
    constructor
    · rintro ⟨h1, h2⟩
      obtain ⟨b, v, h1⟩ := (decodable_iff t hw.1).mp h1
      obtain ⟨b', vs, h2⟩ := (decodableFields_iff fs hw.2).mp h2
      exact ⟨b ++ b', (v, vs), b, b', rfl, h1, h2⟩
    · rintro ⟨_, v, b1, b2, _, h1, h2⟩
      exact ⟨(decodable_iff t hw.1).mpr ⟨_, _, h1⟩, (decodableFields_iff fs hw.2).mpr ⟨_, _, h2⟩⟩

theorem decodableVariants_iff (r : Repr) (ex : List (Option Nat)) : (vs : Variants) → (j : Nat) →
    vs.WF → (DecodableVariants r ex vs j ↔ ∃ bs v, AcceptsVariants r ex vs j bs v)
  | .nil, _, _ => ⟨False.elim, fun ⟨_, v, _⟩ => nomatch v⟩
  | .cons d fs vs, j, hw => by
    constructor
    · rintro (⟨h1, h2⟩ | h)
      · obtain ⟨b, v, h2⟩ := (decodableFields_iff fs hw.1).mp h2
        exact ⟨_, .inl v, h1, b, rfl, h2⟩
      · obtain ⟨b, v, h⟩ := (decodableVariants_iff r ex vs (j + 1) hw.2).mp h
        exact ⟨b, .inr v, h⟩
    · rintro ⟨bs, v, h⟩
      match v, h with
      | .inl v, ⟨h1, b, _, h2⟩ => exact .inl ⟨h1, (decodableFields_iff fs hw.1).mpr ⟨_, _, h2⟩⟩
      | .inr v, h => exact .inr ((decodableVariants_iff r ex vs (j + 1) hw.2).mpr ⟨_, _, h⟩)

end

theorem itemStops_iff {α : Type} {A : List Byte → α → Prop} {S : List Byte → Stop → Prop} {n : Nat}
    {s : Stop} : (∃ bs, ItemStops A S n bs s) ↔ n ≠ 0 ∧ ∃ bs, S bs s := by
  constructor
  · rintro ⟨_, l, b1, b2, hl, _, _, h⟩
    exact ⟨by omega, b2, h⟩
  · rintro ⟨hn, b, h⟩
    exact ⟨b, [], [], b, by simp; omega, rfl, .nil, h⟩

theorem partStops_iff {α : Type} {A : List Byte → α → Prop} {S T : List Byte → Stop → Prop}
    {s : Stop} : (∃ bs, PartStops A S T bs s) ↔
      (∃ bs, S bs s) ∨ (∃ bs a, A bs a) ∧ ∃ bs, T bs s := by
  constructor
  · rintro ⟨bs, h | ⟨a, b1, b2, _, hA, h⟩⟩
    · exact .inl ⟨bs, h⟩
    · exact .inr ⟨⟨b1, a, hA⟩, b2, h⟩
  · rintro (⟨bs, h⟩ | ⟨⟨b1, a, hA⟩, b2, h⟩)
    · exact ⟨bs, .inl h⟩
    · exact ⟨b1 ++ b2, .inr ⟨a, b1, b2, rfl, hA, h⟩⟩

/-- Up to 65535 elements. -/
theorem prefixStops_iff {I : Nat → List Byte → Stop → Prop} {s : Stop} {P : Prop}
    (h : ∀ n, (∃ bs, I n bs s) ↔ n ≠ 0 ∧ P) :
    (∃ bs n r, n ≤ 65535 ∧ bs = leBytes 2 n ++ r ∧ I n r s) ↔ P := by
  constructor
  · rintro ⟨_, n, r, _, _, hI⟩
    exact ((h n).mp ⟨r, hI⟩).2
  · intro hP
    obtain ⟨r, hI⟩ := (h 1).mpr ⟨by decide, hP⟩
    exact ⟨_, 1, r, by decide, rfl, hI⟩

mutual

theorem reaches_iff (s : Stop) : (t : Ty) → t.WF → (Reaches s t ↔ ∃ bs, Stops t bs s)
  | .num k, _ => ⟨False.elim, fun ⟨_, h⟩ => h⟩
  | .bool, _ => ⟨False.elim, fun ⟨_, h⟩ => h⟩
  | .usize, _ => ⟨False.elim, fun ⟨_, h⟩ => h⟩
  | .isize, _ => ⟨False.elim, fun ⟨_, h⟩ => h⟩
  | .nonZero r, _ => ⟨False.elim, fun ⟨_, h⟩ => h⟩
  | .unit _, _ => ⟨False.elim, fun ⟨_, h⟩ => h⟩
  | .systemTime p, _ => ⟨False.elim, fun ⟨_, h⟩ => h⟩
  | .ipv4, _ => ⟨False.elim, fun ⟨_, h⟩ => h⟩
  | .ipv6, _ => ⟨False.elim, fun ⟨_, h⟩ => h⟩
  | .ipAddr, _ => ⟨False.elim, fun ⟨_, h⟩ => h⟩
  | .socketAddrV4, _ => ⟨False.elim, fun ⟨_, h⟩ => h⟩
  | .socketAddrV6, _ => ⟨False.elim, fun ⟨_, h⟩ => h⟩
  | .socketAddr, _ => ⟨False.elim, fun ⟨_, h⟩ => h⟩
  | .str _, _ => ⟨False.elim, fun ⟨_, h⟩ => h⟩
  | .cStr _, _ => ⟨False.elim, fun ⟨_, h⟩ => h⟩
  | .sizedStr n, _ => ⟨False.elim, fun ⟨_, h⟩ => h⟩
  | .char, _ => ⟨fun h => ⟨_, 0xDE00, by decide, rfl, h⟩, fun ⟨_, _, _, _, h⟩ => h⟩
  | .infallible, _ => ⟨fun h => ⟨[], rfl, h⟩, fun ⟨_, _, h⟩ => h⟩
  | .duration, _ => ⟨fun h => ⟨_, 2 ^ 64 - 1, 1000000000, by decide, by decide, rfl, by decide, h⟩,
      fun ⟨_, _, _, _, _, _, _, h⟩ => h⟩
  | .wrap _ t, hw => reaches_iff s t hw
  | .array t n, hw => (and_congr_right fun _ => reaches_iff s t hw).trans itemStops_iff.symm
  | .seq _ t, hw => (reaches_iff s t hw).trans (prefixStops_iff fun _ => itemStops_iff).symm
  | .hashMap k v, hw => by
    refine Iff.trans ?_ (prefixStops_iff fun _ => itemStops_iff).symm
    rw [partStops_iff, ← decodable_iff k hw.1, ← reaches_iff s k hw.1, ← reaches_iff s v hw.2]
    exact .rfl
  | .hashSet k, hw => (reaches_iff s k hw).trans (prefixStops_iff fun _ => itemStops_iff).symm
  | .option t, hw => by
    refine (reaches_iff s t hw).trans ⟨?_, ?_⟩
    · rintro ⟨b, h⟩
      exact ⟨_, 1, b, by decide, rfl, h⟩
    · rintro ⟨_, _, b, _, _, h⟩
      exact ⟨b, h⟩
  | .result t e, hw => by
    refine (or_congr (reaches_iff s t hw.1) (reaches_iff s e hw.2)).trans ⟨?_, ?_⟩
    · rintro (⟨b, h⟩ | ⟨b, h⟩)
      · exact ⟨_, 0, b, rfl, .inl ⟨rfl, h⟩⟩
      · exact ⟨_, 1, b, rfl, .inr ⟨by decide, h⟩⟩
    · rintro ⟨_, _, b, _, ⟨_, h⟩ | ⟨_, h⟩⟩
      · exact .inl ⟨b, h⟩
      · exact .inr ⟨b, h⟩
  | .bound t, hw => by
    refine (reaches_iff s t hw).trans ⟨?_, ?_⟩
    · rintro ⟨b, h⟩
      exact ⟨_, 1, b, .inr rfl, rfl, h⟩
    · rintro ⟨_, _, b, _, _, h⟩
      exact ⟨b, h⟩
  | .range t, hw => (reaches_iff s t hw).trans
      ⟨fun h => partStops_iff.mpr (.inl h), fun h => (partStops_iff.mp h).elim id And.right⟩
  | .rangeInclusive t, hw => (reaches_iff s t hw).trans
      ⟨fun h => partStops_iff.mpr (.inl h), fun h => (partStops_iff.mp h).elim id And.right⟩
  | .lock _ t, hw => reaches_iff s t hw
  | .refCell t, hw => reaches_iff s t hw
  | .sizedSlice t n, hw => by
    refine ((and_congr_right fun _ => reaches_iff s t hw).trans
      (itemStops_iff (A := Accepts t)).symm).trans ⟨?_, ?_⟩
    · rintro ⟨b, h⟩
      exact ⟨_, 0, b, by decide, Nat.zero_le _, rfl, h⟩
    · rintro ⟨_, _, b, _, _, _, h⟩
      exact ⟨b, h⟩
  | .tuple fs, hw => reachesFields_iff s fs hw
  | .struct fs, hw => reachesFields_iff s fs hw
  | .enum r vs, hw => by
    have hd := discs_eq_discOf vs
    have hr : ∀ k < variantCount vs, r.InRange (discOf (explicitDiscs vs) (0 + k)) := by
      intro k hk
      rw [Nat.zero_add]
      exact hw.2.1 _ (by rw [hd]; exact List.mem_map.mpr ⟨k, List.mem_range.mpr hk, rfl⟩) |>.1
    refine (reachesVariants_iff s r (explicitDiscs vs) vs 0 hr hw.2.2).trans ⟨?_, ?_⟩
    · rintro ⟨x, w, h1, h2, h3⟩
      exact ⟨_, x, w, h1, h2, rfl, h3⟩
    · rintro ⟨_, x, w, h1, h2, _, h3⟩
      exact ⟨x, w, h1, h2, h3⟩

theorem reachesFields_iff (s : Stop) : (fs : Fields) → fs.WF →
    (ReachesFields s fs ↔ ∃ bs, StopsFields fs bs s)
  | .nil, _ => ⟨False.elim, fun ⟨_, h⟩ => h⟩
  | .cons t fs, hw => by
    refine Iff.trans ?_ partStops_iff.symm
    rw [← decodable_iff t hw.1, ← reaches_iff s t hw.1, ← reachesFields_iff s fs hw.2]
    exact .rfl

theorem reachesVariants_iff (s : Stop) (r : Repr) (ex : List (Option Nat)) : (vs : Variants) →
    (j : Nat) → (∀ k < variantCount vs, r.InRange (discOf ex (j + k))) → vs.WF →
    (ReachesVariants s r ex vs j ↔
      ∃ x bs, ReprEncodable r x ∧ r.InRange x ∧ StopsVariants ex vs j x bs s)
  | .nil, _, _, _ => ⟨False.elim, fun ⟨_, _, _, _, h⟩ => h⟩
  | .cons d fs vs, j, hr, hw => by
    have ih := reachesVariants_iff s r ex vs (j + 1) (fun k hk => by
      have := hr (k + 1) (Nat.succ_lt_succ hk)
      rwa [show j + (k + 1) = j + 1 + k by omega] at this) hw.2
    constructor
    · rintro (⟨h1, h2⟩ | h)
      · obtain ⟨b, h2⟩ := (reachesFields_iff s fs hw.1).mp h2
        exact ⟨_, b, h1, hr 0 (Nat.succ_pos _), .inl ⟨rfl, h2⟩⟩
      · obtain ⟨x, b, h1, h2, h3⟩ := ih.mp h
        exact ⟨x, b, h1, h2, .inr h3⟩
    · rintro ⟨x, b, h1, h2, ⟨rfl, h3⟩ | h3⟩
      · exact .inl ⟨h1, (reachesFields_iff s fs hw.1).mpr ⟨b, h3⟩⟩
      · exact .inr (ih.mpr ⟨x, b, h1, h2, h3⟩)

end

end Oct
