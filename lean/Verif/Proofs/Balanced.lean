import Verif.Proofs.Canonical
import Verif.Proofs.AcceptsTy
import Verif.Proofs.MaxSize
/- How many octets are taken for a value, compared with how many it is encoded as. -/
namespace Oct
open Spec
set_option linter.unusedVariables false
variable {α β : Type}

theorem nonempty_iff {bs : List Byte} (h : 0 < bs.length) : bs = [] ↔ ¬ True := by
  cases bs with
  | nil => exact absurd h (Nat.lt_irrefl 0)
  | cons b l => simp

theorem each_nil {A : List Byte → α → Prop} {E : Prop} (h : ∀ b x, A b x → (b = [] ↔ ¬ E))
    {bs : List Byte} {l : List α} (hl : Each A bs l) : bs = [] ↔ l = [] ∨ ¬ E := by
  induction hl with
  | nil => simp
  | cons ha hr ih =>
    rw [List.append_eq_nil_iff, h _ _ ha, ih]
    constructor
    · exact fun h => .inr h.1
    · rintro (h | h)
      · cases h
      · exact ⟨h, .inr h⟩

theorem both_nil {A : List Byte → α → Prop} {B : List Byte → β → Prop} {E F : Prop}
    (h : ∀ b x, A b x → (b = [] ↔ ¬ E)) (h' : ∀ b x, B b x → (b = [] ↔ ¬ F))
    {bs : List Byte} {a : α} {b : β} (hb : Both A B bs a b) : bs = [] ↔ ¬ (E ∨ F) := by
  obtain ⟨b1, b2, rfl, h1, h2⟩ := hb
  rw [List.append_eq_nil_iff, h _ _ h1, h' _ _ h2, not_or]

theorem leBytes_pos {n x : Nat} (h : 0 < n) : 0 < (leBytes n x).length := by
  rw [leBytes_length]; exact h

theorem num_bytes_pos : (k : NumKind) → 0 < k.bytes
  | .int k => by cases k <;> decide
  | .f32 => by decide
  | .f64 => by decide

theorem reprWire_pos (r : Repr) (x : Int) : 0 < (reprWire r x).length := by
  rw [reprWire_length]
  cases r <;> first | decide | (rename_i k; cases k <;> decide)

theorem nodup_of_map {f : α → β} : {l : List α} → (l.map f).Nodup → l.Nodup
  | [], _ => List.nodup_nil
  | a :: l, h => by
    rw [List.map_cons, List.nodup_cons] at h
    exact List.nodup_cons.mpr ⟨fun ha => h.1 (List.mem_map_of_mem ha), nodup_of_map h.2⟩

mutual

/-- Nothing is taken for a value of a type that need not have octets, and something for all others. -/
theorem accepts_nil : (t : Ty) → (bs : List Byte) → (v : t.Val) → Accepts t bs v →
    (bs = [] ↔ ¬ Eats t)
  | .num k, bs, v, h => by
    rw [show bs = _ from h]
    exact nonempty_iff (leBytes_pos (num_bytes_pos k))
  | .bool, bs, v, h => by obtain ⟨b, rfl, _⟩ := h; exact nonempty_iff Nat.one_pos
  | .char, bs, v, h => by rw [show bs = _ from h]; exact nonempty_iff (leBytes_pos (by decide))
  | .usize, bs, v, h => by rw [show bs = _ from h.2]; exact nonempty_iff (leBytes_pos (by decide))
  | .isize, bs, v, h => by
    rw [show bs = _ from h.2]; exact nonempty_iff (leBytes_pos (by decide))
  | .nonZero r, bs, v, h => by
    rw [show bs = _ from h.2]; exact nonempty_iff (reprWire_pos r _)
  | .unit k, bs, v, h => by rw [show bs = _ from h]; exact ⟨fun _ => id, fun _ => rfl⟩
  | .infallible, bs, v, h => nomatch v
  | .wrap _ t, bs, v, h => accepts_nil t bs v h
  | .array t n, bs, v, h => by
    rw [each_nil (accepts_nil t) h]
    have hl := v.property
    constructor
    · rintro (h | h)
      · rw [h] at hl
        exact fun h' => h'.1 hl.symm
      · exact fun h' => h h'.2
    · intro h
      by_cases hn : n = 0
      · exact .inl (List.eq_nil_of_length_eq_zero (hl.trans hn))
      · exact .inr fun h' => h ⟨hn, h'⟩
  | .seq k t, bs, v, h => by
    obtain ⟨r, _, rfl, _⟩ := h
    exact nonempty_iff (by rw [List.length_append, leBytes_length]; omega)
  | .hashMap k v, bs, m, h => by
    obtain ⟨l, r, _, rfl, _⟩ := h
    exact nonempty_iff (by rw [List.length_append, leBytes_length]; omega)
  | .hashSet k, bs, m, h => by
    obtain ⟨l, r, _, rfl, _⟩ := h
    exact nonempty_iff (by rw [List.length_append, leBytes_length]; omega)
  | .option t, bs, none, h => by rw [show bs = [0] from h]; exact nonempty_iff Nat.one_pos
  | .option t, bs, some v, h => by
    obtain ⟨b, r, _, rfl, _⟩ := h
    exact nonempty_iff (Nat.succ_pos _)
  | .result t e, bs, .ok v, h => by
    obtain ⟨r, rfl, _⟩ := h
    exact nonempty_iff (Nat.succ_pos _)
  | .result t e, bs, .err v, h => by
    obtain ⟨b, r, _, rfl, _⟩ := h
    exact nonempty_iff (Nat.succ_pos _)
  | .bound t, bs, .included v, h => by
    obtain ⟨r, rfl, _⟩ := h
    exact nonempty_iff (Nat.succ_pos _)
  | .bound t, bs, .excluded v, h => by
    obtain ⟨r, rfl, _⟩ := h
    exact nonempty_iff (Nat.succ_pos _)
  | .bound t, bs, .unbounded, h => by
    rw [show bs = [2] from h]; exact nonempty_iff Nat.one_pos
  | .range t, bs, v, h => (both_nil (accepts_nil t) (accepts_nil t) h).trans (by rw [or_self]; exact .rfl)
  | .rangeInclusive t, bs, v, h =>
    (both_nil (accepts_nil t) (accepts_nil t) h.2).trans (by rw [or_self]; exact .rfl)
  | .lock _ t, bs, v, h => accepts_nil t bs v.val h.2
  | .refCell t, bs, v, h => accepts_nil t bs v.val h.2
  | .duration, bs, v, h => by
    obtain ⟨s, n, _, _, rfl, _⟩ := h
    exact nonempty_iff (by rw [List.length_append, leBytes_length]; omega)
  | .systemTime p, bs, v, h => by
    obtain ⟨x, _, rfl, hv⟩ := h
    exact nonempty_iff (by rw [leBytesInt_length]; decide)
  | .ipv4, bs, v, h => by
    rw [show bs = _ from h]; exact nonempty_iff (by rw [List.length_reverse, v.property]; decide)
  | .ipv6, bs, v, h => by
    rw [show bs = _ from h]; exact nonempty_iff (by rw [List.length_reverse, v.property]; decide)
  | .ipAddr, bs, .v4 a, h => by rw [show bs = _ from h]; exact nonempty_iff (Nat.succ_pos _)
  | .ipAddr, bs, .v6 a, h => by rw [show bs = _ from h]; exact nonempty_iff (Nat.succ_pos _)
  | .socketAddrV4, bs, v, h => by
    rw [show bs = _ from h]
    exact nonempty_iff (by rw [List.length_append, leBytes_length]; omega)
  | .socketAddrV6, bs, v, h => by
    rw [show bs = _ from h]
    exact nonempty_iff (by rw [List.length_append, leBytes_length]; omega)
  | .socketAddr, bs, .v4 a, h => by rw [show bs = _ from h]; exact nonempty_iff (Nat.succ_pos _)
  | .socketAddr, bs, .v6 a, h => by rw [show bs = _ from h]; exact nonempty_iff (Nat.succ_pos _)
  | .str k, bs, v, h => by
    rw [show bs = _ from h.2]; exact nonempty_iff (by rw [List.length_append, leBytes_length]; omega)
  | .cStr k, bs, v, h => by
    rw [show bs = _ from h.2]; exact nonempty_iff (by rw [List.length_append, leBytes_length]; omega)
  | .sizedStr n, bs, v, h => by
    rw [show bs = _ from h.2]; exact nonempty_iff (by rw [List.length_append, leBytes_length]; omega)
  | .sizedSlice t n, bs, v, h => by
    obtain ⟨l, r, _, _, rfl, _⟩ := h
    exact nonempty_iff (by rw [List.length_append, leBytes_length]; omega)
  | .tuple fs, bs, v, h => acceptsFields_nil fs bs v h
  | .struct fs, bs, v, h => acceptsFields_nil fs bs v h
  | .enum r vs, bs, v, h => nonempty_iff (acceptsVariants_pos vs r (explicitDiscs vs) 0 bs v h)

theorem acceptsFields_nil : (fs : Fields) → (bs : List Byte) → (v : fs.Val) → AcceptsFields fs bs v →
    (bs = [] ↔ ¬ EatsFields fs)
  | .nil, bs, v, h => by rw [show bs = [] from h]; exact ⟨fun _ => id, fun _ => rfl⟩
  | .cons t fs, bs, v, h => both_nil (accepts_nil t) (acceptsFields_nil fs) h

theorem acceptsVariants_pos : (vs : Variants) → (r : Repr) → (ex : List (Option Nat)) → (j : Nat) →
    (bs : List Byte) → (v : vs.Val) → AcceptsVariants r ex vs j bs v → 0 < bs.length
  | .nil, _, _, _, _, v, _ => nomatch v
  | .cons d fs vs, r, ex, j, bs, .inl v, h => by
    obtain ⟨_, w, rfl, hA⟩ := h
    rw [List.length_append]
    exact Nat.lt_of_lt_of_le (reprWire_pos r _) (Nat.le_add_right _ _)
  | .cons d fs vs, r, ex, j, bs, .inr v, h => acceptsVariants_pos vs r ex (j + 1) bs v h

end

/-- At least as many octets are taken as there are in the encoding, and as many exactly when `S`. -/
def Weighs (bs w : List Byte) (S : Prop) : Prop :=
  w.length ≤ bs.length ∧ (bs.length = w.length ↔ S)

namespace Weighs

theorem same {bs w : List Byte} {S : Prop} (h : bs.length = w.length) (hS : S) : Weighs bs w S :=
  ⟨Nat.le_of_eq h.symm, fun _ => hS, fun _ => h⟩

theorem more {bs w : List Byte} (h : w.length < bs.length) : Weighs bs w False :=
  ⟨Nat.le_of_lt h, fun e => absurd h (by omega), False.elim⟩

theorem congr {bs w : List Byte} {S S' : Prop} (h : Weighs bs w S) (hS : S ↔ S') : Weighs bs w S' :=
  ⟨h.1, h.2.trans hS⟩

theorem append {b b' w w' : List Byte} {S S' : Prop} (h : Weighs b w S) (h' : Weighs b' w' S') :
    Weighs (b ++ b') (w ++ w') (S ∧ S') := by
  unfold Weighs at *
  rw [List.length_append, List.length_append, ← h.2, ← h'.2]
  omega

theorem after {b w : List Byte} {S : Prop} (p p' : List Byte) (hp : p.length = p'.length)
    (h : Weighs b w S) : Weighs (p ++ b) (p' ++ w) S :=
  ((same hp trivial).append h).congr ⟨And.right, fun h => ⟨trivial, h⟩⟩

theorem each {A : List Byte → α → Prop} {W : α → List Byte} {S : α → Prop}
    (h : ∀ b x, A b x → Weighs b (W x) (S x)) {bs : List Byte} {l : List α} (hl : Each A bs l) :
    Weighs bs (l.flatMap W) (∀ x ∈ l, S x) := by
  induction hl with
  | nil => exact same rfl (fun _ h => nomatch h)
  | cons ha hr ih =>
    rw [List.flatMap_cons]
    exact ((h _ _ ha).append ih).congr (by simp)

end Weighs

theorem each_append {A : List Byte → α → Prop} : {l m : List α} → {bs : List Byte} →
    Each A bs (l ++ m) → ∃ b1 b2, bs = b1 ++ b2 ∧ Each A b1 l ∧ Each A b2 m
  | [], _, _, h => ⟨[], _, rfl, .nil, h⟩
  | a :: l, _, _, h => by
    cases h with
    | cons ha hr =>
      obtain ⟨b1, b2, rfl, h1, h2⟩ := each_append (l := l) hr
      exact ⟨_, b2, (List.append_assoc _ _ _).symm, .cons ha h1, h2⟩

/-- Different elements of a list have no more octets than all of its elements. -/
theorem flatMap_some_le (W : α → List Byte) : (m l : List α) → m.Nodup → (∀ p ∈ m, p ∈ l) →
    (m.flatMap W).length ≤ (l.flatMap W).length
  | [], _, _, _ => Nat.zero_le _
  | p :: m, l, hn, h => by
    obtain ⟨l1, l2, rfl⟩ := List.append_of_mem (h p (by simp))
    rw [List.nodup_cons] at hn
    have := flatMap_some_le W m (l1 ++ l2) hn.2 fun q hq => by
      have hq' := h q (by simp [hq])
      rw [List.mem_append, List.mem_cons] at hq'
      rw [List.mem_append]
      rcases hq' with h | h | h
      · exact .inl h
      · exact absurd (h ▸ hq) hn.1
      · exact .inr h
    simp only [List.flatMap_append, List.flatMap_cons, List.length_append] at this ⊢
    omega

mutual

theorem accepts_weighs : (t : Ty) → (bs : List Byte) → (v : t.Val) → Accepts t bs v →
    Weighs bs (wire t v) (Supported t v)
  | .num k, bs, v, h => .same (by rw [show bs = wire (.num k) v from h]) trivial
  | .bool, bs, v, h => by
    obtain ⟨b, rfl, _⟩ := h
    exact .same rfl trivial
  | .char, bs, v, h => .same (by rw [show bs = wire .char v from h]) trivial
  | .usize, bs, v, h => .same (by rw [show bs = wire .usize v from h.2]) trivial
  | .isize, bs, v, h => .same (by rw [show bs = wire .isize v from h.2]) trivial
  | .nonZero r, bs, v, h => .same (by rw [show bs = wire (.nonZero r) v from h.2]) trivial
  | .unit k, bs, v, h => .same (by rw [show bs = wire (.unit k) v from h]) trivial
  | .infallible, bs, v, h => nomatch v
  | .wrap _ t, bs, v, h => accepts_weighs t bs v h
  | .array t n, bs, v, h => .each (accepts_weighs t) h
  | .seq k t, bs, v, h => by
    obtain ⟨r, _, rfl, hE⟩ := h
    exact .after _ _ rfl (.each (accepts_weighs t) hE)
  | .hashMap k v, bs, m, h => by
    obtain ⟨l, r, _, rfl, hE, hM⟩ := h
    have hw := (Weighs.each (W := fun p => wire k p.1 ++ wire v p.2)
      (S := fun p => Supported k p.1 ∧ Supported v p.2) (fun b p hp => by
        obtain ⟨b1, b2, rfl, h1, h2⟩ := hp
        exact (accepts_weighs k _ _ h1).append (accepts_weighs v _ _ h2)) hE).1
    have hm := flatMap_some_le (fun p : k.Val × v.Val => wire k p.1 ++ wire v p.2) m.val l
      (nodup_of_map m.property) fun p hp => by
        obtain ⟨l1, l2, rfl, _⟩ := hM.2 p hp
        simp
    refine Weighs.more ?_
    show (m.val.flatMap fun p => wire k p.1 ++ wire v p.2).length < _
    rw [List.length_append, leBytes_length]
    omega
  | .hashSet k, bs, s, h => by
    obtain ⟨l, r, _, rfl, hE, hS⟩ := h
    have hw := (Weighs.each (accepts_weighs k) hE).1
    have hm := flatMap_some_le (wire k) s.val l s.property fun p hp => by
      rw [hS] at hp
      exact (mem_firsts l p).mp hp
    refine Weighs.more ?_
    show (s.val.flatMap (wire k)).length < _
    rw [List.length_append, leBytes_length]
    omega
  | .option t, bs, none, h => by rw [show bs = [0] from h]; exact .same rfl trivial
  | .option t, bs, some v, h => by
    obtain ⟨b, r, _, rfl, hA⟩ := h
    exact .after [b] [1] rfl (accepts_weighs t r v hA)
  | .result t e, bs, .ok v, h => by
    obtain ⟨r, rfl, hA⟩ := h
    exact .after [0] [0] rfl (accepts_weighs t r v hA)
  | .result t e, bs, .err v, h => by
    obtain ⟨b, r, _, rfl, hA⟩ := h
    exact .after [b] [1] rfl (accepts_weighs e r v hA)
  | .bound t, bs, .included v, h => by
    obtain ⟨r, rfl, hA⟩ := h
    exact .after [0] [0] rfl (accepts_weighs t r v hA)
  | .bound t, bs, .excluded v, h => by
    obtain ⟨r, rfl, hA⟩ := h
    exact .after [1] [1] rfl (accepts_weighs t r v hA)
  | .bound t, bs, .unbounded, h => by
    rw [show bs = [2] from h]; exact .same rfl trivial
  | .range t, bs, v, h => by
    obtain ⟨b1, b2, rfl, h1, h2⟩ := h
    exact (accepts_weighs t _ _ h1).append (accepts_weighs t _ _ h2)
  | .rangeInclusive t, bs, v, h => by
    obtain ⟨_, b1, b2, rfl, h1, h2⟩ := h
    exact (accepts_weighs t _ _ h1).append (accepts_weighs t _ _ h2)
  | .lock _ t, bs, v, h => accepts_weighs t bs v.val h.2
  | .refCell t, bs, v, h => accepts_weighs t bs v.val h.2
  | .duration, bs, v, h => by
    obtain ⟨s, n, _, _, rfl, _⟩ := h
    exact .same (by simp [wire, leBytes_length]) trivial
  | .systemTime p, bs, v, h => by
    obtain ⟨x, _, rfl, hv⟩ := h
    exact .same (by simp [wire, leBytesInt_length]) trivial
  | .ipv4, bs, v, h => .same (by rw [show bs = wire .ipv4 v from h]) trivial
  | .ipv6, bs, v, h => .same (by rw [show bs = wire .ipv6 v from h]) trivial
  | .ipAddr, bs, .v4 a, h => .same (by rw [show bs = wire .ipAddr (.v4 a) from h]) trivial
  | .ipAddr, bs, .v6 a, h => .same (by rw [show bs = wire .ipAddr (.v6 a) from h]) trivial
  | .socketAddrV4, bs, v, h => .same (by rw [show bs = wire .socketAddrV4 v from h]) trivial
  | .socketAddrV6, bs, v, h => .same (by rw [show bs = wire .socketAddrV6 v from h]) trivial
  | .socketAddr, bs, .v4 a, h => .same (by rw [show bs = wire .socketAddr (.v4 a) from h]) trivial
  | .socketAddr, bs, .v6 a, h => .same (by rw [show bs = wire .socketAddr (.v6 a) from h]) trivial
  | .str k, bs, v, h => .same (by rw [show bs = wire (.str k) v from h.2]) trivial
  | .cStr k, bs, v, h => .same (by rw [show bs = wire (.cStr k) v from h.2]) trivial
  | .sizedStr n, bs, v, h => .same (by rw [show bs = wire (.sizedStr n) v from h.2]) trivial
  | .sizedSlice t n, bs, v, h => by
    obtain ⟨l, r, hl, _, rfl, hE, m, rfl⟩ := h
    obtain ⟨b1, b2, rfl, h1, h2⟩ := each_append hE
    have hb := each_nil (accepts_nil t) h2
    have hm : Weighs b2 [] (v.val.length = n ∨ ¬ Eats t) := by
      refine ⟨Nat.zero_le _, ?_⟩
      rw [show b2.length = ([] : List Byte).length ↔ b2 = [] from List.length_eq_zero_iff, hb,
        ← List.length_eq_zero_iff]
      rw [List.length_append] at hl
      exact or_congr (by omega) .rfl
    have hw := ((Weighs.each (accepts_weighs t) h1).append hm).congr And.comm
    rw [List.append_nil] at hw
    exact .after _ _ rfl hw
  | .tuple fs, bs, v, h => acceptsFields_weighs fs bs v h
  | .struct fs, bs, v, h => acceptsFields_weighs fs bs v h
  | .enum r vs, bs, v, h => acceptsVariants_weighs vs r (explicitDiscs vs) 0 bs v h

theorem acceptsFields_weighs : (fs : Fields) → (bs : List Byte) → (v : fs.Val) →
    AcceptsFields fs bs v → Weighs bs (wireFields fs v) (SupportedFields fs v)
  | .nil, bs, v, h => by rw [show bs = [] from h]; exact .same rfl trivial
  | .cons t fs, bs, v, h => by
    obtain ⟨b1, b2, rfl, h1, h2⟩ := h
    exact (accepts_weighs t _ _ h1).append (acceptsFields_weighs fs _ _ h2)

theorem acceptsVariants_weighs : (vs : Variants) → (r : Repr) → (ex : List (Option Nat)) → (j : Nat) →
    (bs : List Byte) → (v : vs.Val) → AcceptsVariants r ex vs j bs v →
    Weighs bs (wireVariants r ex vs j v) (SupportedVariants vs v)
  | .nil, _, _, _, _, v, _ => nomatch v
  | .cons d fs vs, r, ex, j, bs, .inl v, h => by
    obtain ⟨_, w, rfl, hA⟩ := h
    exact .after _ _ rfl (acceptsFields_weighs fs w v hA)
  | .cons d fs vs, r, ex, j, bs, .inr v, h => acceptsVariants_weighs vs r ex (j + 1) bs v h

end

theorem flatMap_carried {W : α → List Byte} {c : α → α} (h : ∀ x, W (c x) = W x) (l : List α) :
    (l.map c).flatMap W = l.flatMap W := by
  rw [List.flatMap_map]
  exact congrArg (fun f => l.flatMap f) (funext h)

theorem seq_carried {W : α → List Byte} {c : α → α} (h : ∀ x, W (c x) = W x) (l : List α) :
    leBytes 2 (l.map c).length ++ (l.map c).flatMap W = leBytes 2 l.length ++ l.flatMap W := by
  rw [List.length_map, flatMap_carried h]

theorem all_map {S : α → Prop} {c : α → α} (h : ∀ x, S (c x) ↔ S x) (l : List α) :
    (∀ x ∈ l.map c, S x) ↔ ∀ x ∈ l, S x := by
  rw [List.forall_mem_map]
  exact forall_congr' fun x => imp_congr_right fun _ => h x

theorem both_eq {a a' b b' : List Byte} (h : a = a') (h' : b = b') : a ++ b = a' ++ b' := by
  rw [h, h']

mutual

/-- What the format does not carry makes no difference to the encoding. -/
theorem wire_carried : (t : Ty) → (v : t.Val) → wire t (carried t v) = wire t v
  | .wrap _ t, v => wire_carried t v
  | .option t, none => rfl
  | .option t, some v => congrArg (1 :: ·) (wire_carried t v)
  | .result t e, .ok v => congrArg (0 :: ·) (wire_carried t v)
  | .result t e, .err v => congrArg (1 :: ·) (wire_carried e v)
  | .bound t, .included v => congrArg (0 :: ·) (wire_carried t v)
  | .bound t, .excluded v => congrArg (1 :: ·) (wire_carried t v)
  | .bound t, .unbounded => rfl
  | .range t, v => both_eq (wire_carried t v.start) (wire_carried t v.stop)
  | .rangeInclusive t, v => both_eq (wire_carried t v.start) (wire_carried t v.stop)
  | .lock _ t, v => wire_carried t v.val
  | .refCell t, v => wire_carried t v.val
  | .array t _, v => flatMap_carried (wire_carried t) v.val
  | .seq _ t, v => seq_carried (wire_carried t) v
  | .sizedSlice t n, v => seq_carried (wire_carried t) v.val
  | .systemTime p, v => by
    show leBytesInt 8 ((v.val.tdiv nanosPerSec * nanosPerSec).tdiv nanosPerSec) = _
    rw [Int.mul_tdiv_cancel _ (by decide)]
    rfl
  | .tuple fs, v => wireFields_carried fs v
  | .struct fs, v => wireFields_carried fs v
  | .enum r vs, v => wireVariants_carried vs r (explicitDiscs vs) 0 v
  | .num _, _ => rfl
  | .bool, _ => rfl
  | .char, _ => rfl
  | .usize, _ => rfl
  | .isize, _ => rfl
  | .nonZero _, _ => rfl
  | .unit _, _ => rfl
  | .infallible, _ => rfl
  | .hashMap _ _, _ => rfl
  | .hashSet _, _ => rfl
  | .duration, _ => rfl
  | .ipv4, _ => rfl
  | .ipv6, _ => rfl
  | .ipAddr, _ => rfl
  | .socketAddrV4, _ => rfl
  | .socketAddrV6, _ => rfl
  | .socketAddr, _ => rfl
  | .str _, _ => rfl
  | .cStr _, _ => rfl
  | .sizedStr _, _ => rfl

theorem wireFields_carried : (fs : Fields) → (v : fs.Val) →
    wireFields fs (carriedFields fs v) = wireFields fs v
  | .nil, _ => rfl
  | .cons t fs, v => both_eq (wire_carried t v.1) (wireFields_carried fs v.2)

theorem wireVariants_carried : (vs : Variants) → (r : Repr) → (ex : List (Option Nat)) → (j : Nat) →
    (v : vs.Val) → wireVariants r ex vs j (carriedVariants vs v) = wireVariants r ex vs j v
  | .nil, _, _, _, v => nomatch v
  | .cons _ fs vs, r, ex, j, .inl v => congrArg (reprWire r (discOf ex j) ++ ·) (wireFields_carried fs v)
  | .cons _ fs vs, r, ex, j, .inr v => wireVariants_carried vs r ex (j + 1) v

end

mutual

theorem supported_carried : (t : Ty) → (v : t.Val) → (Supported t (carried t v) ↔ Supported t v)
  | .wrap _ t, v => supported_carried t v
  | .option t, none => .rfl
  | .option t, some v => supported_carried t v
  | .result t e, .ok v => supported_carried t v
  | .result t e, .err v => supported_carried e v
  | .bound t, .included v => supported_carried t v
  | .bound t, .excluded v => supported_carried t v
  | .bound t, .unbounded => .rfl
  | .range t, v => and_congr (supported_carried t v.start) (supported_carried t v.stop)
  | .rangeInclusive t, v => and_congr (supported_carried t v.start) (supported_carried t v.stop)
  | .lock _ t, v => supported_carried t v.val
  | .refCell t, v => supported_carried t v.val
  | .array t _, v => all_map (supported_carried t) v.val
  | .seq _ t, v => all_map (supported_carried t) v
  | .sizedSlice t n, v =>
    and_congr (or_congr (iff_of_eq (congrArg (· = n) (List.length_map _))) .rfl)
      (all_map (supported_carried t) v.val)
  | .systemTime p, v => .rfl
  | .tuple fs, v => supportedFields_carried fs v
  | .struct fs, v => supportedFields_carried fs v
  | .enum r vs, v => supportedVariants_carried vs v
  | .num _, _ => .rfl
  | .bool, _ => .rfl
  | .char, _ => .rfl
  | .usize, _ => .rfl
  | .isize, _ => .rfl
  | .nonZero _, _ => .rfl
  | .unit _, _ => .rfl
  | .infallible, _ => .rfl
  | .hashMap _ _, _ => .rfl
  | .hashSet _, _ => .rfl
  | .duration, _ => .rfl
  | .ipv4, _ => .rfl
  | .ipv6, _ => .rfl
  | .ipAddr, _ => .rfl
  | .socketAddrV4, _ => .rfl
  | .socketAddrV6, _ => .rfl
  | .socketAddr, _ => .rfl
  | .str _, _ => .rfl
  | .cStr _, _ => .rfl
  | .sizedStr _, _ => .rfl

theorem supportedFields_carried : (fs : Fields) → (v : fs.Val) →
    (SupportedFields fs (carriedFields fs v) ↔ SupportedFields fs v)
  | .nil, _ => .rfl
  | .cons t fs, v => and_congr (supported_carried t v.1) (supportedFields_carried fs v.2)

theorem supportedVariants_carried : (vs : Variants) → (v : vs.Val) →
    (SupportedVariants vs (carriedVariants vs v) ↔ SupportedVariants vs v)
  | .nil, v => nomatch v
  | .cons _ fs vs, .inl v => supportedFields_carried fs v
  | .cons _ fs vs, .inr v => supportedVariants_carried vs v

end

end Oct
