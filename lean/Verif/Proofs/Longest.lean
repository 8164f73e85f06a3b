import Verif.Spec.Longest
import Verif.Proofs.Sizes
import Verif.Proofs.Utf8
/- The longest encodings. -/
namespace Oct
open Spec
set_option linter.unusedVariables false

namespace Spec.IsLongest
variable {α β γ : Type}

/-- All encodings have one length. -/
theorem const {e : α → Prop} {w : α → List UInt8} {n : Nat} (v : α) (h : e v)
    (hw : ∀ v, (w v).length = n) : IsLongest e w (some n) :=
  ⟨⟨v, h, hw v⟩, fun v _ => Nat.le_of_eq (hw v)⟩

/-- One value for another, with some octets more. -/
theorem image {e : α → Prop} {w : α → List UInt8} {e' : β → Prop} {w' : β → List UInt8} {n : Option Nat}
    (h : IsLongest e w n) (k : Nat) (f : α → β) (g : ∀ b, e' b → ∃ a, e a ∧ (w' b).length = k + (w a).length)
    (hf : ∀ a, e a → e' (f a) ∧ (w' (f a)).length = k + (w a).length) :
    IsLongest e' w' (n.map (k + ·)) := by
  cases n with
  | none => exact fun b hb => let ⟨a, ha, _⟩ := g b hb; h a ha
  | some n =>
    obtain ⟨⟨a, ha, hl⟩, hm⟩ := h
    refine ⟨⟨f a, (hf a ha).1, by rw [(hf a ha).2, hl]⟩, fun b hb => ?_⟩
    obtain ⟨a, ha, e⟩ := g b hb
    have := hm a ha
    show _ ≤ k + n
    omega

/-- Values of either kind. -/
theorem sum {e : α → Prop} {w : α → List UInt8} {e₁ : β → Prop} {w₁ : β → List UInt8}
    {e₂ : γ → Prop} {w₂ : γ → List UInt8} {n m : Option Nat}
    (h₁ : IsLongest e₁ w₁ n) (h₂ : IsLongest e₂ w₂ m) (f₁ : β → α) (f₂ : γ → α)
    (hf₁ : ∀ b, e₁ b → e (f₁ b) ∧ (w (f₁ b)).length = (w₁ b).length)
    (hf₂ : ∀ b, e₂ b → e (f₂ b) ∧ (w (f₂ b)).length = (w₂ b).length)
    (g : ∀ a, e a → (∃ b, e₁ b ∧ (w a).length = (w₁ b).length) ∨
      ∃ b, e₂ b ∧ (w a).length = (w₂ b).length) :
    IsLongest e w (larger n m) := by
  cases n with
  | none =>
    cases m with
    | none =>
      intro a ha
      rcases g a ha with ⟨b, hb, _⟩ | ⟨b, hb, _⟩
      · exact h₁ b hb
      · exact h₂ b hb
    | some m =>
      obtain ⟨⟨b, hb, hl⟩, hm⟩ := h₂
      refine ⟨⟨f₂ b, (hf₂ b hb).1, by rw [(hf₂ b hb).2, hl]⟩, fun a ha => ?_⟩
      rcases g a ha with ⟨b, hb, _⟩ | ⟨b, hb, e⟩
      · exact (h₁ b hb).elim
      · rw [e]; exact hm b hb
  | some n =>
    obtain ⟨⟨b, hb, hl⟩, hm⟩ := h₁
    cases m with
    | none =>
      refine ⟨⟨f₁ b, (hf₁ b hb).1, by rw [(hf₁ b hb).2, hl]⟩, fun a ha => ?_⟩
      rcases g a ha with ⟨b, hb, e⟩ | ⟨b, hb, e⟩
      · rw [e]; exact hm b hb
      · exact (h₂ b hb).elim
    | some m =>
      obtain ⟨⟨b', hb', hl'⟩, hm'⟩ := h₂
      refine ⟨?_, fun a ha => ?_⟩
      · by_cases h : m ≤ n
        · exact ⟨f₁ b, (hf₁ b hb).1, by rw [(hf₁ b hb).2, hl]; omega⟩
        · exact ⟨f₂ b', (hf₂ b' hb').1, by rw [(hf₂ b' hb').2, hl']; omega⟩
      · rcases g a ha with ⟨b, hb, e⟩ | ⟨b, hb, e⟩
        · have := hm b hb; show _ ≤ max n m; omega
        · have := hm' b hb; show _ ≤ max n m; omega

/-- Values of both kinds. -/
theorem prod {e : α → Prop} {w : α → List UInt8} {e₁ : β → Prop} {w₁ : β → List UInt8}
    {e₂ : γ → Prop} {w₂ : γ → List UInt8} {n m : Option Nat}
    (h₁ : IsLongest e₁ w₁ n) (h₂ : IsLongest e₂ w₂ m) (f : β → γ → α)
    (hf : ∀ b c, e₁ b → e₂ c → e (f b c) ∧ (w (f b c)).length = (w₁ b).length + (w₂ c).length)
    (g : ∀ a, e a → ∃ b c, e₁ b ∧ e₂ c ∧ (w a).length = (w₁ b).length + (w₂ c).length) :
    IsLongest e w (both n m) := by
  cases n with
  | none => exact fun a ha => let ⟨b, _, hb, _⟩ := g a ha; h₁ b hb
  | some n =>
    cases m with
    | none => exact fun a ha => let ⟨_, c, _, hc, _⟩ := g a ha; h₂ c hc
    | some m =>
      obtain ⟨⟨b, hb, hl⟩, hm⟩ := h₁
      obtain ⟨⟨c, hc, hl'⟩, hm'⟩ := h₂
      refine ⟨⟨f b c, (hf b c hb hc).1, by rw [(hf b c hb hc).2, hl, hl']⟩, fun a ha => ?_⟩
      obtain ⟨b, c, hb, hc, e⟩ := g a ha
      have := hm b hb
      have := hm' c hc
      show _ ≤ n + m
      omega

/-- As many copies of the longest. -/
theorem copies {w : α → List UInt8} {v : α} {n k : Nat} (h : (w v).length = n) :
    ((List.replicate k v).flatMap w).length = n * k := by
  induction k with
  | zero => rfl
  | succ k ih =>
    rw [List.replicate_succ, List.flatMap_cons, List.length_append, ih, h, Nat.mul_succ]
    omega

theorem both_self (n : Option Nat) : both n n = n.map (2 * ·) := by
  cases n with
  | none => rfl
  | some n => simp [both]; omega

end Spec.IsLongest

theorem valid_replicate (n : Nat) : Utf8.valid (List.replicate n 97) = true := by
  rw [Utf8.valid_iff]
  refine ⟨List.replicate n 'a', ?_⟩
  induction n with
  | zero => rfl
  | succ n ih => rw [List.replicate_succ, ih]; rfl

mutual

theorem longest_spec : (t : Ty) → t.HasSized → IsLongest (Encodable t) (wire t) (longest t)
  | .num k, _ => .const (show BitVec (8 * k.bytes) from 0) trivial
      fun v => by simp [wire, leBytes_length]
  | .bool, _ => .const true trivial fun v => rfl
  | .char, _ => .const 'a' trivial fun v => by simp [wire, leBytes_length]
  | .usize, _ => .const (show Nat from 0) (Nat.zero_le _) fun v => leBytes_length 2 v
  | .isize, _ => .const (show Int from 0) ⟨by decide, by decide⟩ fun v => leBytesInt_length 2 v
  | .nonZero r, _ => by
    refine .const (⟨1, ?_⟩ : {x : Int // r.InRange x ∧ x ≠ 0}) ?_ fun v => ?_
    · cases r with
      | int k => cases k <;> decide
      | _ => decide
    · show ReprEncodable r 1
      cases r <;> unfold ReprEncodable <;> first | trivial | decide
    · simp [wire, reprWire_length]
  | .unit _, _ => .const () trivial fun v => by simp [wire]
  | .infallible, _ => fun v => nomatch v
  | .wrap _ t, h => longest_spec t h
  | .array t n, h => by
    have ih := longest_spec t h
    unfold longest
    by_cases h0 : n = 0
    · rw [if_pos h0]
      refine .const (⟨[], by simp [h0]⟩ : Items t.Val n) (fun _ hx => nomatch hx) fun v => ?_
      have : v.val = [] := List.length_eq_zero_iff.mp (v.property.trans h0)
      simp [wire, this]
    · rw [if_neg h0]
      cases hl : longest t with
      | none =>
        rw [hl] at ih
        intro v hv
        obtain ⟨l, hl⟩ := v
        cases l with
        | nil => exact h0 hl.symm
        | cons a l => exact ih a (hv a (by simp))
      | some m =>
        rw [hl] at ih
        obtain ⟨⟨v, hv, hw⟩, hm⟩ := ih
        refine ⟨⟨⟨List.replicate n v, by simp⟩, fun x hx => ?_, ?_⟩, fun v hv => ?_⟩
        · rw [List.eq_of_mem_replicate hx]; exact hv
        · exact IsLongest.copies hw
        · have := flatMap_length_le (w := wire t) (k := m) v.val fun x hx => hm x (hv x hx)
          rw [v.property] at this
          exact this
  | .seq _ _, h => nomatch h
  | .hashMap _ _, h => nomatch h
  | .hashSet _, h => nomatch h
  | .option t, h => by
    have ih := longest_spec t h
    have h1 : IsLongest (Encodable (.option t)) (wire (.option t))
        (larger (some 1) ((longest t).map (1 + ·))) := by
      refine IsLongest.sum (e₁ := fun _ : Unit => True) (w₁ := fun _ => [0])
        (e₂ := Encodable t) (w₂ := fun v => 1 :: wire t v) (.const () trivial fun _ => rfl)
        (ih.image 1 id (fun b hb => ⟨b, hb, ?_⟩) fun b hb => ⟨hb, ?_⟩)
        (fun _ => (none : Option t.Val)) (fun v => (some v : Option t.Val))
        (fun _ _ => ⟨trivial, rfl⟩) (fun b hb => ⟨hb, rfl⟩) ?_
      · simp; omega
      · simp; omega
      · intro a ha
        match a with
        | none => exact .inl ⟨(), trivial, rfl⟩
        | some v => exact .inr ⟨v, ha, rfl⟩
    have : longest (.option t) = larger (some 1) ((longest t).map (1 + ·)) := by
      rw [longest]
      cases longest t with
      | none => rfl
      | some n => simp [larger]
    rw [this]
    exact h1
  | .result t e, h => by
    have iht := longest_spec t h.1
    have ihe := longest_spec e h.2
    have h1 : IsLongest (fun v : ResultVal t.Val e.Val => Encodable (.result t e) v)
        (fun v : ResultVal t.Val e.Val => (wire (.result t e) v).drop 1)
        (larger (longest t) (longest e)) := by
      refine IsLongest.sum iht ihe (fun v => .ok v) (fun v => .err v)
        (fun _ h => ⟨h, rfl⟩) (fun _ h => ⟨h, rfl⟩) ?_
      intro a ha
      match a with
      | .ok v => exact .inl ⟨v, ha, rfl⟩
      | .err v => exact .inr ⟨v, ha, rfl⟩
    have hl : ∀ v : ResultVal t.Val e.Val, (wire (.result t e) v).length
        = 1 + ((wire (.result t e) v).drop 1).length := by
      intro v
      cases v <;> simp [wire] <;> omega
    exact h1.image 1 id (fun b hb => ⟨b, hb, hl b⟩) fun b hb => ⟨hb, hl b⟩
  | .bound t, h => by
    have ih := longest_spec t h
    have h1 : IsLongest (Encodable (.bound t)) (wire (.bound t))
        (larger (some 1) ((longest t).map (1 + ·))) := by
      refine IsLongest.sum (e₁ := fun _ : Unit => True) (w₁ := fun _ => [0])
        (e₂ := Encodable t) (w₂ := fun v => 1 :: wire t v) (.const () trivial fun _ => rfl)
        (ih.image 1 id (fun b hb => ⟨b, hb, ?_⟩) fun b hb => ⟨hb, ?_⟩)
        (fun _ => (.unbounded : BoundVal t.Val)) (fun v => (.included v : BoundVal t.Val))
        (fun _ _ => ⟨trivial, rfl⟩) (fun b hb => ⟨hb, rfl⟩) ?_
      · simp; omega
      · simp; omega
      · intro a ha
        match a with
        | .unbounded => exact .inl ⟨(), trivial, rfl⟩
        | .included v => exact .inr ⟨v, ha, rfl⟩
        | .excluded v => exact .inr ⟨v, ha, rfl⟩
    have : longest (.bound t) = larger (some 1) ((longest t).map (1 + ·)) := by
      rw [longest]
      cases longest t with
      | none => rfl
      | some n => simp [larger]
    rw [this]
    exact h1
  | .range t, h => by
    have ih := longest_spec t h
    unfold longest
    rw [← IsLongest.both_self]
    exact IsLongest.prod ih ih (fun a b => (⟨a, b⟩ : RangeVal t.Val))
      (fun _ _ ha hb => ⟨⟨ha, hb⟩, List.length_append⟩)
      fun v hv => ⟨v.start, v.stop, hv.1, hv.2, List.length_append⟩
  | .rangeInclusive t, h => by
    have ih := longest_spec t h
    unfold longest
    rw [← IsLongest.both_self]
    exact IsLongest.prod ih ih (fun a b => (⟨a, b, false⟩ : RangeInclusiveVal t.Val))
      (fun _ _ ha hb => ⟨⟨ha, hb⟩, List.length_append⟩)
      fun v hv => ⟨v.start, v.stop, hv.1, hv.2, List.length_append⟩
  | .lock _ t, h => by
    have := (longest_spec t h).image (e' := fun v : LockVal t.Val => Encodable t v.val)
      (w' := fun v => wire t v.val) 0 (fun v => ⟨false, v⟩)
      (fun b hb => ⟨b.val, hb, (Nat.zero_add _).symm⟩) fun a ha => ⟨ha, (Nat.zero_add _).symm⟩
    simp only [Nat.zero_add, Option.map_id'] at this
    exact this
  | .refCell t, h => by
    have := (longest_spec t h).image
      (e' := fun v : RefCellVal t.Val => v.mutBorrowed = false ∧ Encodable t v.val)
      (w' := fun v => wire t v.val) 0 (fun v => ⟨false, v⟩)
      (fun b hb => ⟨b.val, hb.2, (Nat.zero_add _).symm⟩)
      fun a ha => ⟨⟨rfl, ha⟩, (Nat.zero_add _).symm⟩
    simp only [Nat.zero_add, Option.map_id'] at this
    exact this
  | .duration, _ => .const (⟨0, 0, by decide⟩ : DurationVal) trivial
      fun v => by simp [wire, leBytes_length]
  | .systemTime p, _ => .const (⟨0, p.lo_le, p.le_hi⟩ : {ns : Int // p.lo ≤ ns ∧ ns ≤ p.hi})
      (fun h => absurd (show (0 : Int) = _ from h.2) (by decide)) fun v => by simp [wire, leBytesInt_length]
  | .ipv4, _ => .const (⟨[0, 0, 0, 0], rfl⟩ : Items UInt8 4) trivial
      fun v => by simp [wire, v.property]
  | .ipv6, _ => .const (⟨List.replicate 16 0, rfl⟩ : Items UInt8 16) trivial
      fun v => by simp [wire, v.property]
  | .ipAddr, _ => ⟨⟨.v6 ⟨List.replicate 16 0, rfl⟩, trivial, rfl⟩, fun v _ => by
      match v with
      | .v4 a => simp [wire, a.property]
      | .v6 a => simp [wire, a.property]⟩
  | .socketAddrV4, _ => .const (⟨⟨[0, 0, 0, 0], rfl⟩, 0⟩ : SocketAddrV4Val) trivial
      fun v => by simp [wire, leBytes_length, v.ip.property]
  | .socketAddrV6, _ => .const (⟨⟨List.replicate 16 0, rfl⟩, 0, 0, 0⟩ : SocketAddrV6Val) trivial
      fun v => by simp [wire, leBytes_length, v.ip.property]
  | .socketAddr, _ => ⟨⟨.v6 ⟨⟨List.replicate 16 0, rfl⟩, 0, 0, 0⟩, trivial, rfl⟩, fun v _ => by
      match v with
      | .v4 a => simp [wire, leBytes_length, a.ip.property]
      | .v6 a => simp [wire, leBytes_length, a.ip.property]⟩
  | .str _, h => nomatch h
  | .cStr _, h => nomatch h
  | .sizedStr n, _ => by
    refine ⟨⟨⟨List.replicate (min n 65535) 97, valid_replicate _, ?_⟩, ?_, ?_⟩, fun v hv => ?_⟩
    · rw [List.length_replicate]; omega
    · show (List.replicate (min n 65535) (97 : UInt8)).length ≤ 65535
      rw [List.length_replicate]; omega
    · simp [wire, leBytes_length]
    · have h1 := v.property.2
      have h2 : v.val.length ≤ 65535 := hv
      simp only [wire, List.length_append, leBytes_length]; omega
  | .sizedSlice t n, h => by
    have ih := longest_spec t h
    unfold longest
    cases hl : longest t with
    | none =>
      rw [hl] at ih
      have hnil : ∀ v : {l : List t.Val // l.length ≤ n}, Encodable (.sizedSlice t n) v → v.val = [] := by
        intro v hv
        cases hv' : v.val with
        | nil => rfl
        | cons a l => exact (ih a (hv.2 a (by rw [hv']; simp))).elim
      refine ⟨⟨⟨[], by simp⟩, ⟨by simp, fun _ hx => nomatch hx⟩, by simp [wire, leBytes_length]⟩,
        fun v hv => ?_⟩
      simp [wire, hnil v hv, leBytes_length]
    | some m =>
      rw [hl] at ih
      obtain ⟨⟨v, hv, hw⟩, hm⟩ := ih
      refine ⟨⟨⟨List.replicate (min n 65535) v, ?_⟩, ⟨?_, fun x hx => ?_⟩, ?_⟩, fun v hv => ?_⟩
      · rw [List.length_replicate]; omega
      · show (List.replicate (min n 65535) v).length ≤ 65535
        rw [List.length_replicate]; omega
      · rw [List.eq_of_mem_replicate hx]; exact hv
      · show (leBytes 2 _ ++ _).length = _
        rw [List.length_append, leBytes_length, IsLongest.copies hw]
        rfl
      · have h1 := v.property
        have h2 : v.val.length ≤ 65535 := hv.1
        have h3 := flatMap_length_le (w := wire t) (k := m) v.val fun x hx => hm x (hv.2 x hx)
        have h4 : m * v.val.length ≤ m * min n 65535 := Nat.mul_le_mul_left m (by omega)
        show (leBytes 2 _ ++ _).length ≤ _
        rw [List.length_append, leBytes_length]
        show _ ≤ 2 + m * min n 65535
        omega
  | .tuple fs, h => longestFields_spec fs h
  | .struct fs, h => longestFields_spec fs h
  | .enum r vs, h => longestVariants_spec vs h r _ 0

theorem longestFields_spec : (fs : Fields) → fs.HasSized →
    IsLongest (EncodableFields fs) (wireFields fs) (longestFields fs)
  | .nil, _ => .const () trivial fun _ => rfl
  | .cons t fs, h => IsLongest.prod (longest_spec t h.1) (longestFields_spec fs h.2)
      (fun a b => ((a, b) : t.Val × fs.Val)) (fun _ _ ha hb => ⟨⟨ha, hb⟩, List.length_append⟩)
      fun v hv => ⟨v.1, v.2, hv.1, hv.2, List.length_append⟩

theorem longestVariants_spec : (vs : Variants) → vs.HasSized → (r : Repr) →
    (ex : List (Option Nat)) → (j : Nat) →
    IsLongest (EncodableVariants r ex vs j) (wireVariants r ex vs j) (longestVariants r ex vs j)
  | .nil, _, _, _, _ => fun v => nomatch v
  | .cons d fs vs, h, r, ex, j => by
    have ih1 := longestFields_spec fs h.1
    have ih2 := longestVariants_spec vs h.2 r ex (j + 1)
    unfold longestVariants
    refine IsLongest.sum (e₁ := fun v => ReprEncodable r (discOf ex j) ∧ EncodableFields fs v)
      (w₁ := fun v => reprWire r (discOf ex j) ++ wireFields fs v) ?_ ih2
      (fun v => (.inl v : fs.Val ⊕ vs.Val)) (fun v => (.inr v : fs.Val ⊕ vs.Val))
      (fun _ hv => ⟨hv, rfl⟩) (fun _ hv => ⟨hv, rfl⟩) ?_
    · by_cases hr : ReprEncodable r (discOf ex j)
      · rw [if_pos hr]
        refine ih1.image r.bytes id (fun b hb => ⟨b, hb.2, ?_⟩) fun b hb => ⟨⟨hr, hb⟩, ?_⟩
        · rw [List.length_append, reprWire_length]
        · rw [List.length_append, reprWire_length]; rfl
      · rw [if_neg hr]
        exact fun v hv => hr hv.1
    · intro a ha
      match a with
      | .inl v => exact .inl ⟨v, ha, rfl⟩
      | .inr v => exact .inr ⟨v, ha, rfl⟩

end

variable (sizeOf : Ty → Nat)

mutual

theorem longest_attained : (t : Ty) → t.HasSized → Everywhere Attained t →
    longest t = some (t.maxSize sizeOf)
  | .num k, _, _ => rfl
  | .bool, _, _ => rfl
  | .char, _, _ => rfl
  | .usize, _, _ => rfl
  | .isize, _, _ => rfl
  | .nonZero r, _, _ => rfl
  | .unit _, _, _ => rfl
  | .infallible, _, h => nomatch h
  | .wrap _ t, h, ha => longest_attained t h ha.2
  | .array t n, h, ha => by
    unfold longest Ty.maxSize
    by_cases h0 : n = 0
    · rw [if_pos h0, h0]; rfl
    · rw [if_neg h0, longest_attained t h ha.2]; rfl
  | .seq _ _, h, _ => nomatch h
  | .hashMap _ _, h, _ => nomatch h
  | .hashSet _, h, _ => nomatch h
  | .option t, h, ha => by
    unfold longest Ty.maxSize
    rw [longest_attained t h ha.2]; rfl
  | .result t e, _, ha => nomatch ha.1
  | .bound t, h, ha => by
    unfold longest Ty.maxSize
    rw [longest_attained t h ha.2]; rfl
  | .range t, h, ha => by
    unfold longest Ty.maxSize
    rw [longest_attained t h ha.2, Nat.mul_comm]; rfl
  | .rangeInclusive t, h, ha => by
    unfold longest Ty.maxSize
    rw [longest_attained t h ha.2, Nat.mul_comm]; rfl
  | .lock _ t, h, ha => longest_attained t h ha.2
  | .refCell t, h, ha => longest_attained t h ha.2
  | .duration, _, _ => rfl
  | .systemTime p, _, _ => rfl
  | .ipv4, _, _ => rfl
  | .ipv6, _, _ => rfl
  | .ipAddr, _, _ => rfl
  | .socketAddrV4, _, _ => rfl
  | .socketAddrV6, _, _ => rfl
  | .socketAddr, _, _ => rfl
  | .str _, h, _ => nomatch h
  | .cStr _, h, _ => nomatch h
  | .sizedStr n, _, ha => by
    have : n ≤ 65535 := ha
    unfold longest Ty.maxSize
    rw [Nat.min_eq_left this, Nat.one_mul]
  | .sizedSlice t n, _, ha => nomatch ha.1
  | .tuple fs, h, ha => longestFields_attained fs h ha.2
  | .struct fs, h, ha => longestFields_attained fs h ha.2
  | .enum r vs, h, ha => by
    obtain ⟨hne, hd⟩ := ha.1
    unfold longest Ty.maxSize
    rcases longestVariants_attained vs h ha.2 r (explicitDiscs vs) 0
      (fun i hi => hd _ (by omega)) with h | ⟨rfl, _⟩
    · exact h
    · exact (hne rfl).elim

theorem longestFields_attained : (fs : Fields) → fs.HasSized → EverywhereFields Attained fs →
    longestFields fs = some (fs.maxSize sizeOf)
  | .nil, _, _ => rfl
  | .cons t fs, h, ha => by
    unfold longestFields Fields.maxSize
    rw [longest_attained t h.1 ha.1, longestFields_attained fs h.2 ha.2]; rfl

theorem longestVariants_attained : (vs : Variants) → vs.HasSized →
    EverywhereVariants Attained vs → (r : Repr) → (ex : List (Option Nat)) → (j : Nat) →
    (∀ i, i < (explicitDiscs vs).length → ReprEncodable r (discOf ex (j + i))) →
    longestVariants r ex vs j = some (vs.maxSize sizeOf r) ∨
      vs = .nil ∧ longestVariants r ex vs j = none
  | .nil, _, _, _, _, _, _ => .inr ⟨rfl, rfl⟩
  | .cons d fs vs, h, ha, r, ex, j, hd => by
    left
    unfold longestVariants Variants.maxSize
    rw [if_pos (show ReprEncodable r (discOf ex j) from hd 0 (by simp [explicitDiscs])),
      longestFields_attained fs h.1 ha.1]
    rcases longestVariants_attained vs h.2 ha.2 r ex (j + 1) (fun i hi => by
      rw [show j + 1 + i = j + (i + 1) by omega]
      exact hd (i + 1) (by simp [explicitDiscs]; omega)) with e | ⟨rfl, e⟩
    · rw [e]
      simp [larger, Nat.add_comm]
    · rw [e]
      simp [larger, Variants.maxSize, Nat.add_comm]

end

end Oct
