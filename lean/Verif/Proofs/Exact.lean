import Verif.Spec.Exact
import Verif.Proofs.Stops
import Verif.Proofs.Balanced
/- Lemmas for C54 and C55: which types are canonical, and which are balanced. -/
namespace Oct
open Spec
set_option linter.unusedVariables false

namespace Spec.Same
variable {s : Bool} {a b c d : List Byte}

theorem refl (s : Bool) (a : List Byte) : Same s a a := by
  unfold Same; split <;> rfl

theorem append (h : Same s a b) (h' : Same s c d) : Same s (a ++ c) (b ++ d) := by
  unfold Same at *
  split at h
  · rw [if_pos ‹_›] at h' ⊢; rw [h, h']
  · rw [if_neg ‹_›] at h' ⊢; rw [List.length_append, List.length_append, h, h']

theorem length (h : Same s a b) : a.length = b.length := by
  unfold Same at h
  split at h
  · rw [h]
  · exact h

theorem of_eq (h : a = b) : Same s a b := h ▸ refl s a

theorem of_length (hs : s = false) (h : a.length = b.length) : Same s a b := by
  subst hs; exact h

/-- Parts that are no shorter than those of the other side are the same if the whole is. -/
theorem cancel (h1 : b.length ≤ a.length) (h2 : d.length ≤ c.length) (h : Same s (a ++ c) (b ++ d)) :
    Same s a b ∧ Same s c d := by
  have hl := h.length
  rw [List.length_append, List.length_append] at hl
  unfold Same at h ⊢
  split at h
  · rw [if_pos ‹_›, if_pos ‹_›]
    exact List.append_inj h (by omega)
  · rw [if_neg ‹_›, if_neg ‹_›]
    omega

theorem head {x y : Byte} (h : Same true (x :: a) (y :: b)) : x = y := by
  have h' : x :: a = y :: b := h
  exact (List.cons.inj h').1

theorem tail {x : Byte} (h : Same s (x :: a) (x :: b)) : Same s a b := by
  unfold Same at *
  split at h
  · rw [if_pos ‹_›]; exact (List.cons.inj h).2
  · rw [if_neg ‹_›]; simpa using h

theorem cons {x : Byte} (h : Same s a b) : Same s (x :: a) (x :: b) := append (refl s [x]) h

end Spec.Same

section
variable {α : Type} {A : List Byte → α → Prop} {w : α → List Byte} {s : Bool}

theorem each_same (h : ∀ b a, A b a → Same s b (w a)) {bs : List Byte} {l : List α} (hE : Each A bs l) :
    Same s bs (l.flatMap w) := by
  induction hE with
  | nil => exact .refl s []
  | cons hA _ ih => exact .append (h _ _ hA) ih

theorem each_le (h : ∀ b a, A b a → (w a).length ≤ b.length) {bs : List Byte} {l : List α}
    (hE : Each A bs l) : (l.flatMap w).length ≤ bs.length := by
  induction hE with
  | nil => exact Nat.le_refl _
  | cons hA _ ih =>
    rw [List.flatMap_cons, List.length_append, List.length_append]
    exact Nat.add_le_add (h _ _ hA) ih

end

theorem accepts_le (t : Ty) {bs : List Byte} {v : t.Val} (h : Accepts t bs v) :
    (wire t v).length ≤ bs.length := (accepts_weighs t bs v h).1

theorem acceptsFields_le (fs : Fields) {bs : List Byte} {v : fs.Val} (h : AcceptsFields fs bs v) :
    (wireFields fs v).length ≤ bs.length := accepts_le (.tuple fs) h

/-! Which types have no octets. -/

theorem leBytes_ne_nil (n x : Nat) (r : List Byte) : leBytes (n + 1) x ++ r ≠ [] := by
  intro h
  have := congrArg List.length h
  rw [List.length_append, leBytes_length] at this
  simp at this

theorem each_nil_of {α : Type} {A : List Byte → α → Prop} (h : ∀ b a, A b a → b = []) {bs : List Byte}
    {l : List α} (hE : Each A bs l) : bs = [] := by
  induction hE with
  | nil => rfl
  | cons hA _ ih => rw [h _ _ hA, ih]; rfl

/-- A type with a value that takes octets is not silent. -/
theorem not_silent {t : Ty} {bs : List Byte} {v : t.Val} (h : Accepts t bs v) (hb : bs ≠ []) :
    ¬ ∀ bs v, Accepts t bs v → bs = [] := fun hs => hb (hs bs v h)

theorem reprBytes_pos (r : Repr) : 0 < r.bytes := by
  cases r with
  | int k => cases k <;> decide
  | usize => decide
  | isize => decide

theorem numBytes_pos (k : NumKind) : 0 < k.bytes := by
  cases k with
  | int k => cases k <;> decide
  | _ => decide

mutual

theorem silent_iff : (t : Ty) → t.WF → (Silent t ↔ ∀ bs v, Accepts t bs v → bs = [])
  | .num k, _ => ⟨False.elim, not_silent (t := .num k) (v := (0 : BitVec (8 * k.bytes))) rfl fun h => by
      have := congrArg List.length h
      rw [leBytes_length] at this
      exact absurd this (Nat.ne_of_gt (numBytes_pos k))⟩
  | .bool, _ => ⟨False.elim, not_silent (t := .bool) (v := false) ⟨0, rfl, by decide⟩ (by decide)⟩
  | .char, _ => ⟨False.elim, not_silent (t := .char) (v := 'a') rfl (by decide)⟩
  | .usize, _ => ⟨False.elim, not_silent (t := .usize) (v := (0 : Nat)) ⟨by decide, rfl⟩ (by decide)⟩
  | .isize, _ => ⟨False.elim, not_silent (t := .isize) (v := (0 : Int)) ⟨by decide, rfl⟩ (by decide)⟩
  | .nonZero r, _ => ⟨False.elim, fun hs => by
      have h : (r.InRange 1 ∧ (1 : Int) ≠ 0) ∧ ReprEncodable r 1 := by
        cases r with
        | int k => cases k <;> decide
        | usize => decide
        | isize => decide
      have := congrArg List.length (hs _ ⟨1, h.1⟩ ⟨h.2, rfl⟩)
      rw [reprWire_length] at this
      exact absurd this (Nat.ne_of_gt (reprBytes_pos r))⟩
  | .unit _, _ => ⟨fun _ _ _ h => h, fun _ => trivial⟩
  | .infallible, _ => ⟨(fun _ _ v => nomatch v), fun _ => trivial⟩
  | .wrap _ t, hw => silent_iff t hw
  | .array t n, hw => by
    constructor
    · rintro (h | h) bs v hA
      · subst h
        obtain ⟨l, hl⟩ := v
        match l, hl, hA with
        | [], _, .nil => rfl
      · exact each_nil_of ((silent_iff t hw).mp h) hA
    · intro hs
      cases n with
      | zero => exact .inl rfl
      | succ n =>
        refine .inr ((silent_iff t hw).mpr fun b v h => ?_)
        obtain ⟨bs, hb⟩ := each_replicate h n
        have := hs (b ++ bs) ⟨v :: List.replicate n v, by simp⟩ (.cons h hb)
        exact (List.append_eq_nil_iff.mp this).1
  | .seq _ t, _ => ⟨False.elim, not_silent (v := ([] : List t.Val))
      ⟨[], Nat.zero_le _, leBytes2_zero.symm, .nil⟩ (by decide)⟩
  | .hashMap k v, _ => ⟨False.elim, not_silent (v := ⟨[], List.nodup_nil⟩)
      ⟨[], [], Nat.zero_le _, leBytes2_zero.symm, .nil, rfl, (fun _ h => nomatch h)⟩ (by decide)⟩
  | .hashSet k, _ => ⟨False.elim, not_silent (v := ⟨[], List.nodup_nil⟩)
      ⟨([] : List k.Val), [], Nat.zero_le _, leBytes2_zero.symm, .nil, rfl⟩ (by decide)⟩
  | .option t, _ => ⟨False.elim, not_silent (t := .option t) (v := none) (bs := [0]) rfl (by decide)⟩
  | .result t e, hw => by
    constructor
    · rintro ⟨h1, h2⟩ bs v hA
      match v, hA with
      | .ok v, ⟨r, _, h⟩ => exact absurd ((decodable_iff t hw.1).mpr ⟨_, _, h⟩) h1
      | .err v, ⟨_, r, _, _, h⟩ => exact absurd ((decodable_iff e hw.2).mpr ⟨_, _, h⟩) h2
    · intro hs
      constructor
      · intro hd
        obtain ⟨b, v, h⟩ := (decodable_iff t hw.1).mp hd
        exact nomatch hs (0 :: b) (.ok v) ⟨b, rfl, h⟩
      · intro hd
        obtain ⟨b, v, h⟩ := (decodable_iff e hw.2).mp hd
        exact nomatch hs (1 :: b) (.err v) ⟨1, b, by decide, rfl, h⟩
  | .bound t, _ => ⟨False.elim, not_silent (t := .bound t) (v := .unbounded) (bs := [2]) rfl (by decide)⟩
  | .range t, hw => by
    constructor
    · rintro h bs v ⟨b1, b2, rfl, h1, h2⟩
      rw [(silent_iff t hw).mp h _ _ h1, (silent_iff t hw).mp h _ _ h2]; rfl
    · intro hs
      refine (silent_iff t hw).mpr fun b v h => ?_
      exact (List.append_eq_nil_iff.mp (hs (b ++ b) ⟨v, v⟩ ⟨b, b, rfl, h, h⟩)).1
  | .rangeInclusive t, hw => by
    constructor
    · rintro h bs v ⟨_, b1, b2, rfl, h1, h2⟩
      rw [(silent_iff t hw).mp h _ _ h1, (silent_iff t hw).mp h _ _ h2]; rfl
    · intro hs
      refine (silent_iff t hw).mpr fun b v h => ?_
      exact (List.append_eq_nil_iff.mp (hs (b ++ b) ⟨v, v, false⟩ ⟨rfl, b, b, rfl, h, h⟩)).1
  | .lock _ t, hw => ⟨fun h bs v hA => (silent_iff t hw).mp h _ _ hA.2,
      fun hs => (silent_iff t hw).mpr fun b v h => hs b ⟨false, v⟩ ⟨rfl, h⟩⟩
  | .refCell t, hw => ⟨fun h bs v hA => (silent_iff t hw).mp h _ _ hA.2,
      fun hs => (silent_iff t hw).mpr fun b v h => hs b ⟨false, v⟩ ⟨rfl, h⟩⟩
  | .duration, _ => ⟨False.elim, not_silent (t := .duration) (v := ⟨0, 0, by decide⟩)
      ⟨0, 0, by decide, by decide, rfl, rfl⟩ (by decide)⟩
  | .systemTime p, _ => ⟨False.elim, not_silent (t := .systemTime p) (v := ⟨0, p.lo_le, p.le_hi⟩)
      ⟨0, by decide, rfl, rfl⟩ (by decide)⟩
  | .ipv4, _ => ⟨False.elim, not_silent (t := .ipv4) (v := ⟨[0, 0, 0, 0], rfl⟩) rfl (by decide)⟩
  | .ipv6, _ => ⟨False.elim, not_silent (t := .ipv6) (v := ⟨List.replicate 16 0, rfl⟩) rfl (by decide)⟩
  | .ipAddr, _ => ⟨False.elim, not_silent (t := .ipAddr) (v := .v4 ⟨[0, 0, 0, 0], rfl⟩) rfl (by decide)⟩
  | .socketAddrV4, _ => ⟨False.elim, not_silent (t := .socketAddrV4) (v := ⟨⟨[0, 0, 0, 0], rfl⟩, 0⟩) rfl
      (by decide)⟩
  | .socketAddrV6, _ => ⟨False.elim, not_silent (t := .socketAddrV6)
      (v := ⟨⟨List.replicate 16 0, rfl⟩, 0, 0, 0⟩) rfl (by decide)⟩
  | .socketAddr, _ => ⟨False.elim, not_silent (t := .socketAddr) (v := .v4 ⟨⟨[0, 0, 0, 0], rfl⟩, 0⟩) rfl
      (by decide)⟩
  | .str k, _ => ⟨False.elim, not_silent (t := .str k) (v := ⟨[], by decide⟩) ⟨by decide, rfl⟩ (by decide)⟩
  | .cStr k, _ => ⟨False.elim, not_silent (t := .cStr k) (v := ⟨[], by decide⟩) ⟨by decide, rfl⟩ (by decide)⟩
  | .sizedStr n, _ => ⟨False.elim, not_silent (t := .sizedStr n) (v := ⟨[], rfl, Nat.zero_le _⟩)
      ⟨Nat.zero_le _, rfl⟩ (leBytes_ne_nil 1 0 [])⟩
  | .sizedSlice t n, hw => by
    constructor
    · rintro ⟨h0, h⟩ bs v ⟨l, r, hl, _, _, hE, _⟩
      match l, hl, hE with
      | [], hl, _ => exact absurd hl.symm h0
      | a :: l, _, .cons hA _ => exact absurd ((decodable_iff t hw).mpr ⟨_, _, hA⟩) h
    · intro hs
      have hd : ¬ Decodable (.sizedSlice t n) := by
        intro hd
        obtain ⟨bs, v, h⟩ := (decodable_iff (.sizedSlice t n) hw).mp hd
        have := hs bs v h
        obtain ⟨l, r, _, _, h', _⟩ := h
        rw [h'] at this
        exact leBytes_ne_nil 1 _ _ this
      exact ⟨fun h0 => hd (.inl h0), fun h => hd (.inr h)⟩
  | .tuple fs, hw => silentFields_iff fs hw
  | .struct fs, hw => silentFields_iff fs hw
  | .enum r vs, hw => by
    constructor
    · intro h bs v hA
      exact absurd ((decodableVariants_iff r (explicitDiscs vs) vs 0 hw.2.2).mpr ⟨_, _, hA⟩) h
    · intro hs hd
      obtain ⟨bs, v, h⟩ := (decodableVariants_iff r (explicitDiscs vs) vs 0 hw.2.2).mp hd
      have h1 := hs bs v h
      subst h1
      exact variants_not_nil vs r _ 0 v h

theorem silentFields_iff : (fs : Fields) → fs.WF →
    (SilentFields fs ↔ ∀ bs v, AcceptsFields fs bs v → bs = [])
  | .nil, _ => ⟨fun _ _ _ h => h, fun _ => trivial⟩
  | .cons t fs, hw => by
    constructor
    · rintro h bs v ⟨b1, b2, rfl, h1, h2⟩
      obtain ⟨g1, g2⟩ := h ⟨(decodable_iff t hw.1).mpr ⟨_, _, h1⟩, (decodableFields_iff fs hw.2).mpr ⟨_, _, h2⟩⟩
      rw [(silent_iff t hw.1).mp g1 _ _ h1, (silentFields_iff fs hw.2).mp g2 _ _ h2]; rfl
    · rintro hs ⟨d1, d2⟩
      obtain ⟨b1, v1, h1⟩ := (decodable_iff t hw.1).mp d1
      obtain ⟨b2, v2, h2⟩ := (decodableFields_iff fs hw.2).mp d2
      refine ⟨(silent_iff t hw.1).mpr fun b v h => ?_, (silentFields_iff fs hw.2).mpr fun b v h => ?_⟩
      · exact (List.append_eq_nil_iff.mp (hs (b ++ b2) (v, v2) ⟨b, b2, rfl, h, h2⟩)).1
      · exact (List.append_eq_nil_iff.mp (hs (b1 ++ b) (v1, v) ⟨b1, b, rfl, h1, h⟩)).2

theorem variants_not_nil : (vs : Variants) → (r : Repr) → (ex : List (Option Nat)) → (j : Nat) →
    (v : vs.Val) → ¬ AcceptsVariants r ex vs j [] v
  | .nil, _, _, _, v => nomatch v
  | .cons _ fs vs, r, ex, j, .inl v => by
    rintro ⟨_, w, h, _⟩
    have := congrArg List.length h
    rw [List.length_append, reprWire_length] at this
    have := reprBytes_pos r
    simp at *
    omega
  | .cons _ fs vs, r, ex, j, .inr v => variants_not_nil vs r ex (j + 1) v

end

/-! Which types are exact. -/

mutual

theorem exact_iff (s : Bool) : (t : Ty) → t.WF →
    (Exact s t ↔ ∀ bs v, Accepts t bs v → Same s bs (wire t v))
  | .num k, _ => ⟨fun _ bs v h => .of_eq h, fun _ => trivial⟩
  | .bool, _ => by
    constructor
    · rintro hs bs v ⟨b, rfl, _⟩
      exact .of_length hs rfl
    · intro hs
      cases s with
      | false => rfl
      | true => exact absurd (hs [2] true ⟨2, rfl, by decide⟩).head (by decide)
  | .char, _ => ⟨fun _ bs v h => .of_eq h, fun _ => trivial⟩
  | .usize, _ => ⟨fun _ bs v h => .of_eq h.2, fun _ => trivial⟩
  | .isize, _ => ⟨fun _ bs v h => .of_eq h.2, fun _ => trivial⟩
  | .nonZero r, _ => ⟨fun _ bs v h => .of_eq h.2, fun _ => trivial⟩
  | .unit k, _ => ⟨fun _ bs v h => .of_eq h, fun _ => trivial⟩
  | .infallible, _ => ⟨(fun _ _ v => nomatch v), fun _ => trivial⟩
  | .wrap _ t, hw => exact_iff s t hw
  | .array t n, hw => by
    constructor
    · rintro (h | h) bs v hA
      · subst h
        obtain ⟨l, hl⟩ := v
        match l, hl, hA with
        | [], _, .nil => exact .refl s []
      · exact each_same ((exact_iff s t hw).mp h) hA
    · intro hs
      cases n with
      | zero => exact .inl rfl
      | succ n =>
        refine .inr ((exact_iff s t hw).mpr fun b v h => ?_)
        obtain ⟨bs, hb⟩ := each_replicate h n
        exact (Same.cancel (accepts_le t h) (each_le (w := wire t) (fun _ _ => accepts_le t) hb)
          (hs (b ++ bs) ⟨v :: List.replicate n v, by simp⟩ (.cons h hb))).1
  | .seq _ t, hw => by
    constructor
    · rintro h bs v ⟨r, _, rfl, hE⟩
      exact .append (.refl s _) (each_same ((exact_iff s t hw).mp h) hE)
    · intro hs
      refine (exact_iff s t hw).mpr fun b v h => ?_
      have := hs (leBytes 2 1 ++ (b ++ [])) [v] ⟨b ++ [], show 1 ≤ 65535 by decide, rfl, .cons h .nil⟩
      have h2 := (Same.cancel (Nat.le_refl _) (by
        show (wire t v ++ []).length ≤ _
        rw [List.append_nil, List.append_nil]
        exact accepts_le t h) this).2
      rw [List.append_nil] at h2
      have h3 : Same s b (wire t v ++ []) := h2
      rwa [List.append_nil] at h3
  | .hashMap k v, _ => by
    refine ⟨False.elim, fun hs => ?_⟩
    have := (hs [0, 0] ⟨[], List.nodup_nil⟩
      ⟨[], [], Nat.zero_le _, leBytes2_zero.symm, .nil, rfl, (fun _ h => nomatch h)⟩).length
    exact absurd this (show ¬ (2 = 0) by decide)
  | .hashSet k, _ => by
    refine ⟨False.elim, fun hs => ?_⟩
    have := (hs [0, 0] ⟨[], List.nodup_nil⟩
      ⟨([] : List k.Val), [], Nat.zero_le _, leBytes2_zero.symm, .nil, rfl⟩).length
    exact absurd this (show ¬ (2 = 0) by decide)
  | .option t, hw => by
    constructor
    · rintro ⟨h1, h2⟩ bs v hA
      match v, hA with
      | none, h => exact .of_eq h
      | some v, ⟨b, r, hb, e, h⟩ =>
        subst e
        cases s with
        | true => exact absurd ((decodable_iff t hw).mpr ⟨_, _, h⟩) (h2 rfl)
        | false =>
          exact Same.append (a := [b]) (b := [1]) (.of_length rfl rfl) ((exact_iff false t hw).mp h1 _ _ h)
    · intro hs
      refine ⟨(exact_iff s t hw).mpr fun b v h => (hs (1 :: b) (some v) ⟨1, b, by decide, rfl, h⟩).tail, ?_⟩
      rintro rfl hd
      obtain ⟨b, v, h⟩ := (decodable_iff t hw).mp hd
      exact absurd (hs (2 :: b) (some v) ⟨2, b, by decide, rfl, h⟩).head (by decide)
  | .result t e, hw => by
    constructor
    · rintro ⟨h1, h2, h3⟩ bs v hA
      match v, hA with
      | .ok v, ⟨r, e, h⟩ => subst e; exact ((exact_iff s t hw.1).mp h1 _ _ h).cons
      | .err v, ⟨b, r, hb, e', h⟩ =>
        subst e'
        cases s with
        | true => exact absurd ((decodable_iff e hw.2).mpr ⟨_, _, h⟩) (h3 rfl)
        | false =>
          exact Same.append (a := [b]) (b := [1]) (.of_length rfl rfl) ((exact_iff false e hw.2).mp h2 _ _ h)
    · intro hs
      refine ⟨(exact_iff s t hw.1).mpr fun b v h => (hs (0 :: b) (.ok v) ⟨b, rfl, h⟩).tail,
        (exact_iff s e hw.2).mpr fun b v h => (hs (1 :: b) (.err v) ⟨1, b, by decide, rfl, h⟩).tail, ?_⟩
      rintro rfl hd
      obtain ⟨b, v, h⟩ := (decodable_iff e hw.2).mp hd
      exact absurd (hs (2 :: b) (.err v) ⟨2, b, by decide, rfl, h⟩).head (by decide)
  | .bound t, hw => by
    constructor
    · intro h bs v hA
      match v, hA with
      | .included v, ⟨r, e, hr⟩ => subst e; exact ((exact_iff s t hw).mp h _ _ hr).cons
      | .excluded v, ⟨r, e, hr⟩ => subst e; exact ((exact_iff s t hw).mp h _ _ hr).cons
      | .unbounded, h => exact .of_eq h
    · intro hs
      exact (exact_iff s t hw).mpr fun b v h => (hs (0 :: b) (.included v) ⟨b, rfl, h⟩).tail
  | .range t, hw => by
    constructor
    · rintro h bs v ⟨b1, b2, rfl, h1, h2⟩
      exact .append ((exact_iff s t hw).mp h _ _ h1) ((exact_iff s t hw).mp h _ _ h2)
    · intro hs
      exact (exact_iff s t hw).mpr fun b v h => (Same.cancel (accepts_le t h) (accepts_le t h)
        (hs (b ++ b) ⟨v, v⟩ ⟨b, b, rfl, h, h⟩)).1
  | .rangeInclusive t, hw => by
    constructor
    · rintro h bs v ⟨_, b1, b2, rfl, h1, h2⟩
      exact .append ((exact_iff s t hw).mp h _ _ h1) ((exact_iff s t hw).mp h _ _ h2)
    · intro hs
      exact (exact_iff s t hw).mpr fun b v h => (Same.cancel (accepts_le t h) (accepts_le t h)
        (hs (b ++ b) ⟨v, v, false⟩ ⟨rfl, b, b, rfl, h, h⟩)).1
  | .lock _ t, hw => ⟨fun h bs v hA => (exact_iff s t hw).mp h _ _ hA.2,
      fun hs => (exact_iff s t hw).mpr fun b v h => hs b ⟨false, v⟩ ⟨rfl, h⟩⟩
  | .refCell t, hw => ⟨fun h bs v hA => (exact_iff s t hw).mp h _ _ hA.2,
      fun hs => (exact_iff s t hw).mpr fun b v h => hs b ⟨false, v⟩ ⟨rfl, h⟩⟩
  | .duration, _ => by
    constructor
    · rintro hs bs v ⟨x, n, _, _, rfl, _⟩
      exact .of_length hs (by simp [wire, leBytes_length])
    · intro hs
      cases s with
      | false => rfl
      | true =>
        exact absurd (hs (leBytes 8 0 ++ leBytes 4 1000000000) ⟨1#64, 0, by decide⟩
          ⟨0, 1000000000, by decide, by decide, rfl, by decide⟩).head (by decide)
  | .systemTime p, _ => by
    refine ⟨fun _ bs v h => ?_, fun _ => trivial⟩
    obtain ⟨x, _, rfl, hv⟩ := h
    have : wire (.systemTime p) v = leBytesInt 8 x := by
      show leBytesInt 8 (v.val.tdiv nanosPerSec) = _
      rw [hv, Int.mul_tdiv_cancel _ (by decide)]
    rw [this]; exact .refl s _
  | .ipv4, _ => ⟨fun _ bs v h => .of_eq h, fun _ => trivial⟩
  | .ipv6, _ => ⟨fun _ bs v h => .of_eq h, fun _ => trivial⟩
  | .ipAddr, _ => ⟨fun _ bs v h => by
      match v, h with
      | .v4 a, h => exact .of_eq h
      | .v6 a, h => exact .of_eq h, fun _ => trivial⟩
  | .socketAddrV4, _ => ⟨fun _ bs v h => .of_eq h, fun _ => trivial⟩
  | .socketAddrV6, _ => ⟨fun _ bs v h => .of_eq h, fun _ => trivial⟩
  | .socketAddr, _ => ⟨fun _ bs v h => by
      match v, h with
      | .v4 a, h => exact .of_eq h
      | .v6 a, h => exact .of_eq h, fun _ => trivial⟩
  | .str k, _ => ⟨fun _ bs v h => .of_eq h.2, fun _ => trivial⟩
  | .cStr k, _ => ⟨fun _ bs v h => .of_eq h.2, fun _ => trivial⟩
  | .sizedStr n, _ => ⟨fun _ bs v h => .of_eq h.2, fun _ => trivial⟩
  | .sizedSlice t n, hw => by
    constructor
    · rintro h bs v ⟨l, r, hl, hv, rfl, hE, hp⟩
      refine .append (.refl s _) ?_
      have hr : r = [] := by
        rcases h with h | h
        · subst h
          match l, hl, hE with
          | [], _, .nil => rfl
        · exact each_nil_of ((silent_iff t hw).mp h) hE
      subst hr
      have h0 : (l.flatMap (wire t)).length ≤ 0 := each_le (w := wire t) (fun _ _ => accepts_le t) hE
      obtain ⟨m, hm⟩ := hp
      rw [← hm, List.flatMap_append, List.length_append] at h0
      have : v.val.flatMap (wire t) = [] := List.length_eq_zero_iff.mp (by omega)
      show Same s [] (v.val.flatMap (wire t))
      rw [this]
      exact .refl s []
    · intro hs
      cases n with
      | zero => exact .inl rfl
      | succ n =>
        refine .inr ((silent_iff t hw).mpr fun b v h => ?_)
        obtain ⟨bs, hb⟩ := each_replicate h n
        have := (hs (leBytes 2 0 ++ (b ++ bs)) ⟨[], Nat.zero_le _⟩ ⟨v :: List.replicate n v, b ++ bs, by simp,
          Nat.zero_le _, rfl, .cons h hb, List.nil_prefix⟩).length
        have h' : (leBytes 2 0 ++ (b ++ bs)).length = (leBytes 2 0 ++ []).length := this
        rw [List.append_nil, List.length_append, List.length_append] at h'
        exact List.length_eq_zero_iff.mp (by omega)
  | .tuple fs, hw => exactFields_iff s fs hw
  | .struct fs, hw => exactFields_iff s fs hw
  | .enum r vs, hw => exactVariants_iff s r (explicitDiscs vs) vs 0 hw.2.2

theorem exactFields_iff (s : Bool) : (fs : Fields) → fs.WF →
    (ExactFields s fs ↔ ∀ bs v, AcceptsFields fs bs v → Same s bs (wireFields fs v))
  | .nil, _ => ⟨fun _ _ _ h => .of_eq h, fun _ => trivial⟩
  | .cons t fs, hw => by
    constructor
    · rintro h bs v ⟨b1, b2, rfl, h1, h2⟩
      obtain ⟨g1, g2⟩ := h ⟨(decodable_iff t hw.1).mpr ⟨_, _, h1⟩, (decodableFields_iff fs hw.2).mpr ⟨_, _, h2⟩⟩
      exact .append ((exact_iff s t hw.1).mp g1 _ _ h1) ((exactFields_iff s fs hw.2).mp g2 _ _ h2)
    · rintro hs ⟨d1, d2⟩
      obtain ⟨b1, v1, h1⟩ := (decodable_iff t hw.1).mp d1
      obtain ⟨b2, v2, h2⟩ := (decodableFields_iff fs hw.2).mp d2
      refine ⟨(exact_iff s t hw.1).mpr fun b v h => ?_, (exactFields_iff s fs hw.2).mpr fun b v h => ?_⟩
      · exact (Same.cancel (accepts_le t h) (acceptsFields_le fs h2)
          (hs (b ++ b2) (v, v2) ⟨b, b2, rfl, h, h2⟩)).1
      · exact (Same.cancel (accepts_le t h1) (acceptsFields_le fs h)
          (hs (b1 ++ b) (v1, v) ⟨b1, b, rfl, h1, h⟩)).2

theorem exactVariants_iff (s : Bool) (r : Repr) (ex : List (Option Nat)) : (vs : Variants) → (j : Nat) →
    vs.WF → (ExactVariants s r ex vs j ↔
      ∀ bs v, AcceptsVariants r ex vs j bs v → Same s bs (wireVariants r ex vs j v))
  | .nil, _, _ => ⟨(fun _ _ v => nomatch v), fun _ => trivial⟩
  | .cons d fs vs, j, hw => by
    constructor
    · rintro ⟨h1, h2⟩ bs v hA
      match v, hA with
      | .inl v, ⟨hr, w, e, h⟩ =>
        subst e
        exact .append (.refl s _) ((exactFields_iff s fs hw.1).mp (h1 hr) _ _ h)
      | .inr v, h => exact (exactVariants_iff s r ex vs (j + 1) hw.2).mp h2 _ _ h
    · intro hs
      refine ⟨fun hr => (exactFields_iff s fs hw.1).mpr fun b v h => ?_,
        (exactVariants_iff s r ex vs (j + 1) hw.2).mpr fun b v h => hs b (.inr v) h⟩
      exact (Same.cancel (Nat.le_refl _) (acceptsFields_le fs h)
        (hs (reprWire r (discOf ex j) ++ b) (.inl v) ⟨hr, b, rfl, h⟩)).2

end

end Oct
