import Verif.Model.SizeConst
import Verif.Spec.SizeConst
/- `sizeConst` against `maxSize`. -/
namespace Oct
open Spec

/-- `x` is computed to be `m` exactly if `c`. -/
def ComputedIf (w : Nat) (x : Option Nat) (m : Nat) (c : Prop) : Prop :=
  (x = some m ∧ c ∧ m < 2 ^ w) ∨ (x = none ∧ ¬ c)

theorem ComputedIf.congr {w x m} {c d : Prop} (h : ComputedIf w x m c) (e : c ↔ d) :
    ComputedIf w x m d := propext e ▸ h

theorem ComputedIf.const {w m : Nat} (h : m < 2 ^ w) : ComputedIf w (some m) m True :=
  .inl ⟨rfl, trivial, h⟩

theorem ComputedIf.add {w x a c y b d} (hx : ComputedIf w x a c) (hy : ComputedIf w y b d) :
    ComputedIf w (constAdd w x y) (a + b) (c ∧ d ∧ a + b < 2 ^ w) := by
  rcases hx with ⟨rfl, hc, ha⟩ | ⟨rfl, hc⟩
  · rcases hy with ⟨rfl, hd, hb⟩ | ⟨rfl, hd⟩
    · by_cases h : a + b < 2 ^ w
      · exact .inl ⟨by simp [constAdd, h], ⟨hc, hd, h⟩, h⟩
      · exact .inr ⟨by simp [constAdd, h], fun h' => h h'.2.2⟩
    · exact .inr ⟨rfl, fun h' => hd h'.2.1⟩
  · exact .inr ⟨rfl, fun h' => hc h'.1⟩

theorem ComputedIf.mul {w x a c y b d} (hx : ComputedIf w x a c) (hy : ComputedIf w y b d) :
    ComputedIf w (constMul w x y) (a * b) (c ∧ d ∧ a * b < 2 ^ w) := by
  rcases hx with ⟨rfl, hc, ha⟩ | ⟨rfl, hc⟩
  · rcases hy with ⟨rfl, hd, hb⟩ | ⟨rfl, hd⟩
    · by_cases h : a * b < 2 ^ w
      · exact .inl ⟨by simp [constMul, h], ⟨hc, hd, h⟩, h⟩
      · exact .inr ⟨by simp [constMul, h], fun h' => h h'.2.2⟩
    · exact .inr ⟨rfl, fun h' => hd h'.2.1⟩
  · exact .inr ⟨rfl, fun h' => hc h'.1⟩

theorem Spec.SizeReads.trans {t u x : Ty} (h : SizeReads t u) (h' : SizeReads u x) : SizeReads t x := by
  induction h with
  | self => exact h'
  | wrap _ _ _ _ ih => exact .wrap _ _ _ (ih h')
  | array _ _ _ _ ih => exact .array _ _ _ (ih h')
  | option _ _ _ ih => exact .option _ _ (ih h')
  | bound _ _ _ ih => exact .bound _ _ (ih h')
  | range _ _ _ ih => exact .range _ _ (ih h')
  | rangeInclusive _ _ _ ih => exact .rangeInclusive _ _ (ih h')
  | lock _ _ _ _ ih => exact .lock _ _ _ (ih h')
  | refCell _ _ _ ih => exact .refCell _ _ (ih h')
  | sizedSlice _ _ _ _ ih => exact .sizedSlice _ _ _ (ih h')
  | tuple _ _ _ hf _ ih => exact .tuple _ _ _ hf (ih h')
  | struct _ _ _ hf _ ih => exact .struct _ _ _ hf (ih h')
  | enum _ _ _ _ _ hv hf _ ih => exact .enum _ _ _ _ _ hv hf (ih h')

/-- All constants below stay within `w` bits. -/
def ReadOk (w : Nat) (s : Ty → Nat) (t : Ty) : Prop := ∀ u, SizeReads t u → u.maxSize s < 2 ^ w

def ReadOkF (w : Nat) (s : Ty → Nat) (fs : Fields) : Prop :=
  ∀ t, FieldOf t fs → ReadOk w s t

def ReadOkV (w : Nat) (s : Ty → Nat) (vs : Variants) : Prop :=
  ∀ fs, VariantOf fs vs → ReadOkF w s fs

theorem readOk_leaf {w s t} (h : ∀ u, SizeReads t u → u = t) (hb : t.maxSize s < 2 ^ w) :
    ReadOk w s t := fun u hu => h u hu ▸ hb

theorem readOkF_cons {w s t fs} : ReadOkF w s (.cons t fs) ↔ ReadOk w s t ∧ ReadOkF w s fs :=
  ⟨fun h => ⟨h t (.head fs), fun u hu => h u (.tail t fs hu)⟩,
   fun h u hu => by cases hu with
    | head => exact h.1
    | tail _ _ hu => exact h.2 u hu⟩

theorem readOkV_cons {w s d fs vs} :
    ReadOkV w s (.cons d fs vs) ↔ ReadOkF w s fs ∧ ReadOkV w s vs :=
  ⟨fun h => ⟨h fs (.head d vs), fun u hu => h u (.tail d fs vs hu)⟩,
   fun h u hu => by cases hu with
    | head => exact h.1
    | tail _ _ _ hu => exact h.2 u hu⟩

/-- Split `ReadOk` of a type with one part. -/
theorem readOk_one {w s t u} (h : ∀ x, SizeReads t x ↔ x = t ∨ SizeReads u x) :
    ReadOk w s t ↔ ReadOk w s u ∧ t.maxSize s < 2 ^ w :=
  ⟨fun k => ⟨fun x hx => k x ((h x).2 (.inr hx)), k t ((h t).2 (.inl rfl))⟩,
   fun k x hx => by
    rcases (h x).1 hx with rfl | hx
    · exact k.2
    · exact k.1 x hx⟩

theorem sizeReads_wrap {w t x} : SizeReads (.wrap w t) x ↔ x = .wrap w t ∨ SizeReads t x :=
  ⟨fun h => by cases h with | self => exact .inl rfl | wrap _ _ _ h => exact .inr h,
   fun h => h.elim (fun h => h ▸ .self _) (.wrap _ _ _)⟩
theorem sizeReads_array {t n x} : SizeReads (.array t n) x ↔ x = .array t n ∨ SizeReads t x :=
  ⟨fun h => by cases h with | self => exact .inl rfl | array _ _ _ h => exact .inr h,
   fun h => h.elim (fun h => h ▸ .self _) (.array _ _ _)⟩
theorem sizeReads_option {t x} : SizeReads (.option t) x ↔ x = .option t ∨ SizeReads t x :=
  ⟨fun h => by cases h with | self => exact .inl rfl | option _ _ h => exact .inr h,
   fun h => h.elim (fun h => h ▸ .self _) (.option _ _)⟩
theorem sizeReads_bound {t x} : SizeReads (.bound t) x ↔ x = .bound t ∨ SizeReads t x :=
  ⟨fun h => by cases h with | self => exact .inl rfl | bound _ _ h => exact .inr h,
   fun h => h.elim (fun h => h ▸ .self _) (.bound _ _)⟩
theorem sizeReads_range {t x} : SizeReads (.range t) x ↔ x = .range t ∨ SizeReads t x :=
  ⟨fun h => by cases h with | self => exact .inl rfl | range _ _ h => exact .inr h,
   fun h => h.elim (fun h => h ▸ .self _) (.range _ _)⟩
theorem sizeReads_rangeInclusive {t x} : SizeReads (.rangeInclusive t) x ↔ x = .rangeInclusive t ∨ SizeReads t x :=
  ⟨fun h => by cases h with | self => exact .inl rfl | rangeInclusive _ _ h => exact .inr h,
   fun h => h.elim (fun h => h ▸ .self _) (.rangeInclusive _ _)⟩
theorem sizeReads_lock {k t x} : SizeReads (.lock k t) x ↔ x = .lock k t ∨ SizeReads t x :=
  ⟨fun h => by cases h with | self => exact .inl rfl | lock _ _ _ h => exact .inr h,
   fun h => h.elim (fun h => h ▸ .self _) (.lock _ _ _)⟩
theorem sizeReads_refCell {t x} : SizeReads (.refCell t) x ↔ x = .refCell t ∨ SizeReads t x :=
  ⟨fun h => by cases h with | self => exact .inl rfl | refCell _ _ h => exact .inr h,
   fun h => h.elim (fun h => h ▸ .self _) (.refCell _ _)⟩
theorem sizeReads_sizedSlice {t n x} : SizeReads (.sizedSlice t n) x ↔ x = .sizedSlice t n ∨ SizeReads t x :=
  ⟨fun h => by cases h with | self => exact .inl rfl | sizedSlice _ _ _ h => exact .inr h,
   fun h => h.elim (fun h => h ▸ .self _) (.sizedSlice _ _ _)⟩

theorem readOk_tuple {w s fs} :
    ReadOk w s (.tuple fs) ↔ ReadOkF w s fs ∧ (Ty.tuple fs).maxSize s < 2 ^ w :=
  ⟨fun k => ⟨fun t ht u hu => k u (.tuple t fs u ht hu), k _ (.self _)⟩,
   fun k x hx => by cases hx with
    | self => exact k.2
    | tuple t _ _ ht hu => exact k.1 t ht x hu⟩
theorem readOk_struct {w s fs} :
    ReadOk w s (.struct fs) ↔ ReadOkF w s fs ∧ (Ty.struct fs).maxSize s < 2 ^ w :=
  ⟨fun k => ⟨fun t ht u hu => k u (.struct t fs u ht hu), k _ (.self _)⟩,
   fun k x hx => by cases hx with
    | self => exact k.2
    | struct t _ _ ht hu => exact k.1 t ht x hu⟩
theorem readOk_enum {w s r vs} :
    ReadOk w s (.enum r vs) ↔ ReadOkV w s vs ∧ (Ty.enum r vs).maxSize s < 2 ^ w :=
  ⟨fun k => ⟨fun fs hf t ht u hu => k u (.enum t fs r vs u hf ht hu), k _ (.self _)⟩,
   fun k x hx => by cases hx with
    | self => exact k.2
    | enum t fs _ _ _ hf ht hu => exact k.1 fs hf t ht x hu⟩

theorem ComputedIf.mulConst {w x a c} (b : Nat) (hx : ComputedIf w x a c) :
    ComputedIf w (constMul w x (some b)) (a * b) (c ∧ a * b < 2 ^ w) := by
  rcases hx with ⟨rfl, hc, ha⟩ | ⟨rfl, hc⟩
  · by_cases h : a * b < 2 ^ w
    · exact .inl ⟨by simp [constMul, h], ⟨hc, h⟩, h⟩
    · exact .inr ⟨by simp [constMul, h], fun h' => h h'.2⟩
  · exact .inr ⟨rfl, fun h' => hc h'.1⟩

theorem ComputedIf.addConst {w y b d} (a : Nat) (hy : ComputedIf w y b d) :
    ComputedIf w (constAdd w (some a) y) (a + b) (d ∧ a + b < 2 ^ w) := by
  rcases hy with ⟨rfl, hc, ha⟩ | ⟨rfl, hc⟩
  · by_cases h : a + b < 2 ^ w
    · exact .inl ⟨by simp [constAdd, h], ⟨hc, h⟩, h⟩
    · exact .inr ⟨by simp [constAdd, h], fun h' => h h'.2⟩
  · exact .inr ⟨rfl, fun h' => hc h'.1⟩

theorem ComputedIf.max {w x a c y b d} (hx : ComputedIf w x a c) (hy : ComputedIf w y b d) :
    ComputedIf w (x.bind fun x => y.map fun y => if y > x then y else x) (Nat.max a b) (c ∧ d) := by
  rcases hx with ⟨rfl, hc, ha⟩ | ⟨rfl, hc⟩
  · rcases hy with ⟨rfl, hd, hb⟩ | ⟨rfl, hd⟩
    · refine .inl ⟨?_, ⟨hc, hd⟩, Nat.max_lt.2 ⟨ha, hb⟩⟩
      show some (if b > a then b else a) = some (Nat.max a b)
      congr 1
      show _ = Max.max a b
      split <;> omega
    · exact .inr ⟨rfl, fun h' => hd h'.2⟩
  · exact .inr ⟨rfl, fun h' => hc h'.1⟩

theorem small_lt {w} (hw : 16 ≤ w) {n : Nat} (hn : n ≤ 27) : n < 2 ^ w :=
  Nat.lt_of_le_of_lt hn (Nat.lt_of_lt_of_le (by decide : 27 < 2 ^ 16) (Nat.pow_le_pow_right (by decide) hw))

theorem ComputedIf.leaf {w : Nat} (hw : 16 ≤ w) {s : Ty → Nat} {t : Ty} (h : ∀ u, SizeReads t u → u = t)
    (hb : t.maxSize s ≤ 27) : ComputedIf w (some (t.maxSize s)) (t.maxSize s) (ReadOk w s t) :=
  .inl ⟨rfl, readOk_leaf h (small_lt hw hb), small_lt hw hb⟩

theorem Repr.bytes_le (r : Repr) : r.bytes ≤ 27 := by
  cases r with
  | int k => cases k <;> decide
  | usize => decide
  | isize => decide

/-- A type whose constant is that of its part. -/
theorem ComputedIf.same {w s t u} (h : ComputedIf w (u.sizeConst w s) (u.maxSize s) (ReadOk w s u))
    (hr : ∀ x, SizeReads t x ↔ x = t ∨ SizeReads u x) (hm : t.maxSize s = u.maxSize s) :
    ComputedIf w (u.sizeConst w s) (u.maxSize s) (ReadOk w s t) := by
  refine h.congr ((readOk_one hr).trans ?_).symm
  rw [hm]
  exact ⟨fun k => k.1, fun k => ⟨k, k u (.self u)⟩⟩

section
variable (w : Nat) (hw : 16 ≤ w) (s : Ty → Nat)
set_option linter.unusedSectionVars false

include hw

mutual

theorem Ty.sizeConst_computed : (t : Ty) → ComputedIf w (t.sizeConst w s) (t.maxSize s) (ReadOk w s t)
  | .wrap _ t => by
    rw [Ty.sizeConst, Ty.maxSize]
    exact (Ty.sizeConst_computed t).same (fun _ => sizeReads_wrap) (by rw [Ty.maxSize])
  | .lock _ t => by
    rw [Ty.sizeConst, Ty.maxSize]
    exact (Ty.sizeConst_computed t).same (fun _ => sizeReads_lock) (by rw [Ty.maxSize])
  | .refCell t => by
    rw [Ty.sizeConst, Ty.maxSize]
    exact (Ty.sizeConst_computed t).same (fun _ => sizeReads_refCell) (by rw [Ty.maxSize])
  | .array t n => by
    have h := (Ty.sizeConst_computed t).mulConst n
    rw [Ty.sizeConst, Ty.maxSize]
    refine h.congr ?_
    rw [readOk_one (fun _ => sizeReads_array), Ty.maxSize]
  | .sizedSlice t n => by
    have h := (Ty.sizeConst_computed t).mulConst n
    rw [Ty.sizeConst, Ty.maxSize]
    refine h.congr ?_
    rw [readOk_one (fun _ => sizeReads_sizedSlice), Ty.maxSize]
  | .range t => by
    have h := (Ty.sizeConst_computed t).mulConst 2
    rw [Ty.sizeConst, Ty.maxSize]
    refine h.congr ?_
    rw [readOk_one (fun _ => sizeReads_range), Ty.maxSize]
  | .rangeInclusive t => by
    have h := (Ty.sizeConst_computed t).mulConst 2
    rw [Ty.sizeConst, Ty.maxSize]
    refine h.congr ?_
    rw [readOk_one (fun _ => sizeReads_rangeInclusive), Ty.maxSize]
  | .option t => by
    have h := (Ty.sizeConst_computed t).addConst 1
    rw [Ty.sizeConst, Ty.maxSize]
    refine h.congr ?_
    rw [readOk_one (fun _ => sizeReads_option), Ty.maxSize]
  | .bound t => by
    have h := (Ty.sizeConst_computed t).addConst 1
    rw [Ty.sizeConst, Ty.maxSize]
    refine h.congr ?_
    rw [readOk_one (fun _ => sizeReads_bound), Ty.maxSize]
  | .result t e => by
    have hr : ReadOk w s (.result t e) ↔ (Ty.result t e).maxSize s < 2 ^ w :=
      ⟨fun k => k _ (.self _), fun k => readOk_leaf (fun _ h => by cases h; rfl) k⟩
    rw [hr, Ty.sizeConst, Ty.maxSize]
    generalize (if s t > s e then s t else s e) = b
    by_cases h : 1 + b < 2 ^ w
    · exact .inl ⟨by simp [constAdd, h], h, h⟩
    · exact .inr ⟨by simp [constAdd, h], h⟩
  | .sizedStr n => by
    have hr : ReadOk w s (.sizedStr n) ↔ (Ty.sizedStr n).maxSize s < 2 ^ w :=
      ⟨fun k => k _ (.self _), fun k => readOk_leaf (fun _ h => by cases h; rfl) k⟩
    rw [hr, Ty.sizeConst, Ty.maxSize]
    have h := ((ComputedIf.const (small_lt hw (by decide : 1 ≤ 27))).mulConst n).addConst 2
    refine h.congr ⟨fun k => k.2, fun k => ⟨⟨trivial, by omega⟩, k⟩⟩
  | .tuple fs => by
    have h := Fields.sizeConst_computed fs _ _ _ (ComputedIf.const (small_lt hw (Nat.zero_le _)))
    rw [Ty.sizeConst, Ty.maxSize]
    rw [Nat.zero_add] at h
    refine h.congr ?_
    rw [readOk_tuple, Ty.maxSize]
    exact ⟨fun k => k.2, fun k => ⟨trivial, k⟩⟩
  | .struct fs => by
    have h := Fields.sizeConst_computed fs _ _ _ (ComputedIf.const (small_lt hw (Nat.zero_le _)))
    rw [Ty.sizeConst, Ty.maxSize]
    rw [Nat.zero_add] at h
    refine h.congr ?_
    rw [readOk_struct, Ty.maxSize]
    exact ⟨fun k => k.2, fun k => ⟨trivial, k⟩⟩
  | .enum r vs => by
    have h := Variants.sizeConst_computed r vs _ _ _ (ComputedIf.const (small_lt hw (Nat.zero_le _)))
    rw [Ty.sizeConst, Ty.maxSize]
    rw [Nat.zero_max] at h
    refine h.congr ?_
    rw [readOk_enum, Ty.maxSize]
    exact ⟨fun k => k.2, fun k => ⟨trivial, k⟩⟩
  | .num k => .leaf hw (fun _ h => by cases h; rfl) (by rw [Ty.maxSize]; rcases k with (k | _ | _) <;> first | decide | (cases k <;> decide))
  | .bool => .leaf hw (fun _ h => by cases h; rfl) (by rw [Ty.maxSize]; decide)
  | .char => .leaf hw (fun _ h => by cases h; rfl) (by rw [Ty.maxSize]; decide)
  | .usize => .leaf hw (fun _ h => by cases h; rfl) (by rw [Ty.maxSize]; decide)
  | .isize => .leaf hw (fun _ h => by cases h; rfl) (by rw [Ty.maxSize]; decide)
  | .nonZero r => .leaf hw (fun _ h => by cases h; rfl) (by rw [Ty.maxSize]; exact Repr.bytes_le r)
  | .unit _ => .leaf hw (fun _ h => by cases h; rfl) (by rw [Ty.maxSize]; decide)
  | .infallible => .leaf hw (fun _ h => by cases h; rfl) (by rw [Ty.maxSize]; decide)
  | .seq _ _ => .leaf hw (fun _ h => by cases h; rfl) (by rw [Ty.maxSize]; decide)
  | .hashMap _ _ => .leaf hw (fun _ h => by cases h; rfl) (by rw [Ty.maxSize]; decide)
  | .hashSet _ => .leaf hw (fun _ h => by cases h; rfl) (by rw [Ty.maxSize]; decide)
  | .duration => .leaf hw (fun _ h => by cases h; rfl) (by rw [Ty.maxSize]; decide)
  | .systemTime _ => .leaf hw (fun _ h => by cases h; rfl) (by rw [Ty.maxSize]; decide)
  | .ipv4 => .leaf hw (fun _ h => by cases h; rfl) (by rw [Ty.maxSize]; decide)
  | .ipv6 => .leaf hw (fun _ h => by cases h; rfl) (by rw [Ty.maxSize]; decide)
  | .ipAddr => .leaf hw (fun _ h => by cases h; rfl) (by rw [Ty.maxSize]; decide)
  | .socketAddrV4 => .leaf hw (fun _ h => by cases h; rfl) (by rw [Ty.maxSize]; decide)
  | .socketAddrV6 => .leaf hw (fun _ h => by cases h; rfl) (by rw [Ty.maxSize]; decide)
  | .socketAddr => .leaf hw (fun _ h => by cases h; rfl) (by rw [Ty.maxSize]; decide)
  | .str _ => .leaf hw (fun _ h => by cases h; rfl) (by rw [Ty.maxSize]; decide)
  | .cStr _ => .leaf hw (fun _ h => by cases h; rfl) (by rw [Ty.maxSize]; decide)

theorem Fields.sizeConst_computed : (fs : Fields) → (acc : Option Nat) → (a : Nat) → (c : Prop) →
    ComputedIf w acc a c →
    ComputedIf w (fs.sizeConst w s acc) (a + fs.maxSize s) (c ∧ ReadOkF w s fs ∧ a + fs.maxSize s < 2 ^ w)
  | .nil, acc, a, c, h => by
    rw [Fields.sizeConst, Fields.maxSize]
    rcases h with ⟨rfl, hc, ha⟩ | ⟨rfl, hc⟩
    · exact .inl ⟨rfl, ⟨hc, nofun, ha⟩, ha⟩
    · exact .inr ⟨rfl, fun k => hc k.1⟩
  | .cons t fs, acc, a, c, h => by
    have h' := Fields.sizeConst_computed fs _ _ _ (h.add (Ty.sizeConst_computed t))
    rw [Fields.sizeConst, Fields.maxSize, ← Nat.add_assoc]
    refine h'.congr ?_
    rw [readOkF_cons]
    exact ⟨fun ⟨⟨a, b, c⟩, d, e⟩ => ⟨a, ⟨b, d⟩, e⟩,
      fun ⟨a, ⟨b, d⟩, e⟩ => ⟨⟨a, b, Nat.lt_of_le_of_lt (Nat.le_add_right _ _) e⟩, d, e⟩⟩

theorem Variants.sizeConst_computed (r : Repr) : (vs : Variants) → (tot : Option Nat) → (a : Nat) →
    (c : Prop) → ComputedIf w tot a c →
    ComputedIf w (vs.sizeConst w s r tot) (max a (vs.maxSize s r))
      (c ∧ ReadOkV w s vs ∧ max a (vs.maxSize s r) < 2 ^ w)
  | .nil, tot, a, c, h => by
    rw [Variants.sizeConst, Variants.maxSize, Nat.max_eq_left (Nat.zero_le _)]
    rcases h with ⟨rfl, hc, ha⟩ | ⟨rfl, hc⟩
    · exact .inl ⟨rfl, ⟨hc, nofun, ha⟩, ha⟩
    · exact .inr ⟨rfl, fun k => hc k.1⟩
  | .cons d fs vs, tot, a, c, h => by
    have h1 := (Fields.sizeConst_computed fs _ _ _ (ComputedIf.const (small_lt hw (Nat.zero_le _)))).add
      (ComputedIf.const (w := w) (m := r.bytes) (small_lt hw (Repr.bytes_le r)))
    rw [Nat.zero_add] at h1
    rw [Variants.sizeConst, Variants.maxSize, ← Nat.max_assoc]
    have h2 := Variants.sizeConst_computed r vs _ _ _ (h.max h1)
    refine h2.congr ?_
    rw [readOkV_cons]
    have e : Nat.max a (fs.maxSize s + r.bytes) = max a (fs.maxSize s + r.bytes) := rfl
    rw [e]
    exact ⟨fun ⟨⟨a, ⟨_, b, _⟩, _⟩, d, e⟩ => ⟨a, ⟨b, d⟩, e⟩,
      fun ⟨a, ⟨b, d⟩, e⟩ => ⟨⟨a, ⟨trivial, b, by omega⟩, trivial, by omega⟩, d, e⟩⟩

end

end

end Oct
