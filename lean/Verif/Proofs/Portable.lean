import Verif.Spec.Portable
import Verif.Proofs.RoundTrip
/- Values on two platforms. -/
namespace Oct
open Spec
set_option linter.unusedVariables false
variable (q : TimePlatform)

theorem onPlatform_explicit : (vs : Variants) →
    explicitDiscs (onPlatformVariants q vs) = explicitDiscs vs
  | .nil => rfl
  | .cons d fs vs => congrArg (d :: ·) (onPlatform_explicit vs)

theorem onPlatform_discs : (vs : Variants) → (prev : Option Nat) →
    (onPlatformVariants q vs).discs prev = vs.discs prev
  | .nil, _ => rfl
  | .cons d fs vs, prev => congrArg (nextDisc prev d :: ·) (onPlatform_discs vs _)

theorem movedTime_val {q : TimePlatform} {ns : Int} (h : q.lo ≤ ns ∧ ns ≤ q.hi) :
    (movedTime q ns).val = ns := by
  unfold movedTime
  rw [dif_pos h]

theorem flatMap_moved {α β : Type} (f : α → β) (w : β → List UInt8) (w' : α → List UInt8) (l : List α)
    (h : ∀ x ∈ l, w (f x) = w' x) : (l.map f).flatMap w = l.flatMap w' := by
  induction l with
  | nil => rfl
  | cons a l ih =>
    rw [List.map_cons, List.flatMap_cons, List.flatMap_cons, h a (by simp),
      ih fun x hx => h x (by simp [hx])]

theorem all_moved {α β : Type} (f : α → β) (P : β → Prop) (l : List α) (h : ∀ x ∈ l, P (f x)) :
    ∀ y ∈ l.map f, P y := by
  intro y hy
  obtain ⟨x, hx, rfl⟩ := List.mem_map.mp hy
  exact h x hx

mutual

theorem onPlatform_wf : (t : Ty) → t.WF → (onPlatform q t).WF
  | .systemTime _, _ => trivial
  | .wrap _ t, h => onPlatform_wf t h
  | .array t _, h => onPlatform_wf t h
  | .seq _ t, h => onPlatform_wf t h
  | .option t, h => onPlatform_wf t h
  | .result t e, h => ⟨onPlatform_wf t h.1, onPlatform_wf e h.2⟩
  | .bound t, h => onPlatform_wf t h
  | .range t, h => onPlatform_wf t h
  | .rangeInclusive t, h => onPlatform_wf t h
  | .lock _ t, h => onPlatform_wf t h
  | .refCell t, h => onPlatform_wf t h
  | .sizedSlice t _, h => onPlatform_wf t h
  | .tuple fs, h => onPlatform_wfFields fs h
  | .struct fs, h => onPlatform_wfFields fs h
  | .enum r vs, h => by
    refine ⟨?_, ?_, onPlatform_wfVariants vs h.2.2⟩
    · rw [onPlatform_discs]; exact h.1
    · rw [onPlatform_discs]; exact h.2.1
  | .num _, _ => trivial
  | .bool, _ => trivial
  | .char, _ => trivial
  | .usize, _ => trivial
  | .isize, _ => trivial
  | .nonZero _, _ => trivial
  | .unit _, _ => trivial
  | .infallible, _ => trivial
  | .hashMap _ _, h => h
  | .hashSet _, h => h
  | .duration, _ => trivial
  | .ipv4, _ => trivial
  | .ipv6, _ => trivial
  | .ipAddr, _ => trivial
  | .socketAddrV4, _ => trivial
  | .socketAddrV6, _ => trivial
  | .socketAddr, _ => trivial
  | .str _, _ => trivial
  | .cStr _, _ => trivial
  | .sizedStr _, _ => trivial

theorem onPlatform_wfFields : (fs : Fields) → fs.WF → (onPlatformFields q fs).WF
  | .nil, _ => trivial
  | .cons t fs, h => ⟨onPlatform_wf t h.1, onPlatform_wfFields fs h.2⟩

theorem onPlatform_wfVariants : (vs : Variants) → vs.WF → (onPlatformVariants q vs).WF
  | .nil, _ => trivial
  | .cons _ fs vs, h => ⟨onPlatform_wfFields fs h.1, onPlatform_wfVariants vs h.2⟩

end

mutual

theorem onPlatform_eats : (t : Ty) → (Eats (onPlatform q t) ↔ Eats t)
  | .wrap _ t => onPlatform_eats t
  | .array t n => and_congr_right fun _ => onPlatform_eats t
  | .range t => onPlatform_eats t
  | .rangeInclusive t => onPlatform_eats t
  | .lock _ t => onPlatform_eats t
  | .refCell t => onPlatform_eats t
  | .tuple fs => onPlatform_eatsFields fs
  | .struct fs => onPlatform_eatsFields fs
  | .num _ => .rfl
  | .bool => .rfl
  | .char => .rfl
  | .usize => .rfl
  | .isize => .rfl
  | .nonZero _ => .rfl
  | .unit _ => .rfl
  | .infallible => .rfl
  | .seq _ _ => .rfl
  | .hashMap _ _ => .rfl
  | .hashSet _ => .rfl
  | .option _ => .rfl
  | .result _ _ => .rfl
  | .bound _ => .rfl
  | .duration => .rfl
  | .systemTime _ => .rfl
  | .ipv4 => .rfl
  | .ipv6 => .rfl
  | .ipAddr => .rfl
  | .socketAddrV4 => .rfl
  | .socketAddrV6 => .rfl
  | .socketAddr => .rfl
  | .str _ => .rfl
  | .cStr _ => .rfl
  | .sizedStr _ => .rfl
  | .sizedSlice _ _ => .rfl
  | .enum _ _ => .rfl

theorem onPlatform_eatsFields : (fs : Fields) → (EatsFields (onPlatformFields q fs) ↔ EatsFields fs)
  | .nil => .rfl
  | .cons t fs => or_congr (onPlatform_eats t) (onPlatform_eatsFields fs)

end

mutual

theorem moved_supported : (t : Ty) → (v : t.Val) → Supported t v →
    Supported (onPlatform q t) (moved q t v)
  | .systemTime _, _, _ => trivial
  | .wrap _ t, v, h => moved_supported t v h
  | .array t _, v, h => all_moved _ _ _ fun x hx => moved_supported t x (h x hx)
  | .seq _ t, v, h => all_moved _ _ _ fun x hx => moved_supported t x (h x hx)
  | .option t, none, h => trivial
  | .option t, some v, h => moved_supported t v h
  | .result t e, .ok v, h => moved_supported t v h
  | .result t e, .err v, h => moved_supported e v h
  | .bound t, .included v, h => moved_supported t v h
  | .bound t, .excluded v, h => moved_supported t v h
  | .bound t, .unbounded, h => trivial
  | .range t, v, h => ⟨moved_supported t _ h.1, moved_supported t _ h.2⟩
  | .rangeInclusive t, v, h => ⟨moved_supported t _ h.1, moved_supported t _ h.2⟩
  | .lock _ t, v, h => moved_supported t v.val h
  | .refCell t, v, h => moved_supported t v.val h
  | .sizedSlice t n, v, h =>
    ⟨h.1.imp (List.length_map _).trans fun h' => mt (onPlatform_eats q t).mp h',
      all_moved _ _ _ fun x hx => moved_supported t x (h.2 x hx)⟩
  | .tuple fs, v, h => moved_supportedFields fs v h
  | .struct fs, v, h => moved_supportedFields fs v h
  | .enum r vs, v, h => moved_supportedVariants vs v h
  | .num _, _, _ => trivial
  | .bool, _, _ => trivial
  | .char, _, _ => trivial
  | .usize, _, _ => trivial
  | .isize, _, _ => trivial
  | .nonZero _, _, _ => trivial
  | .unit _, _, _ => trivial
  | .infallible, _, _ => trivial
  | .hashMap _ _, _, h => h
  | .hashSet _, _, h => h
  | .duration, _, _ => trivial
  | .ipv4, _, _ => trivial
  | .ipv6, _, _ => trivial
  | .ipAddr, _, _ => trivial
  | .socketAddrV4, _, _ => trivial
  | .socketAddrV6, _, _ => trivial
  | .socketAddr, _, _ => trivial
  | .str _, _, _ => trivial
  | .cStr _, _, _ => trivial
  | .sizedStr _, _, _ => trivial

theorem moved_supportedFields : (fs : Fields) → (v : fs.Val) → SupportedFields fs v →
    SupportedFields (onPlatformFields q fs) (movedFields q fs v)
  | .nil, _, _ => trivial
  | .cons t fs, v, h => ⟨moved_supported t v.1 h.1, moved_supportedFields fs v.2 h.2⟩

theorem moved_supportedVariants : (vs : Variants) → (v : vs.Val) → SupportedVariants vs v →
    SupportedVariants (onPlatformVariants q vs) (movedVariants q vs v)
  | .nil, v, _ => nomatch v
  | .cons _ fs vs, .inl v, h => moved_supportedFields fs v h
  | .cons _ fs vs, .inr v, h => moved_supportedVariants vs v h

end

mutual

theorem moved_encodable : (t : Ty) → (v : t.Val) → Fits q t v → Encodable t v →
    Encodable (onPlatform q t) (moved q t v)
  | .systemTime _, v, hf, _ => by
    have e := movedTime_val hf.1
    show ¬ (q.overflowChecks = true ∧ (movedTime q v.val).val = _)
    rw [e]
    exact hf.2
  | .wrap _ t, v, hf, h => moved_encodable t v hf h
  | .array t _, v, hf, h => all_moved _ _ _ fun x hx => moved_encodable t x (hf x hx) (h x hx)
  | .seq _ t, v, hf, h =>
    ⟨Nat.le_trans (Nat.le_of_eq (List.length_map _)) h.1,
      all_moved _ _ _ fun x hx => moved_encodable t x (hf x hx) (h.2 x hx)⟩
  | .option t, none, hf, h => trivial
  | .option t, some v, hf, h => moved_encodable t v hf h
  | .result t e, .ok v, hf, h => moved_encodable t v hf h
  | .result t e, .err v, hf, h => moved_encodable e v hf h
  | .bound t, .included v, hf, h => moved_encodable t v hf h
  | .bound t, .excluded v, hf, h => moved_encodable t v hf h
  | .bound t, .unbounded, hf, h => trivial
  | .range t, v, hf, h => ⟨moved_encodable t _ hf.1 h.1, moved_encodable t _ hf.2 h.2⟩
  | .rangeInclusive t, v, hf, h => ⟨moved_encodable t _ hf.1 h.1, moved_encodable t _ hf.2 h.2⟩
  | .lock _ t, v, hf, h => moved_encodable t v.val hf h
  | .refCell t, v, hf, h => ⟨h.1, moved_encodable t v.val hf h.2⟩
  | .sizedSlice t n, v, hf, h =>
    ⟨by show (List.map _ _).length ≤ _; rw [List.length_map]; exact h.1,
      all_moved _ _ _ fun x hx => moved_encodable t x (hf x hx) (h.2 x hx)⟩
  | .tuple fs, v, hf, h => moved_encodableFields fs v hf h
  | .struct fs, v, hf, h => moved_encodableFields fs v hf h
  | .enum r vs, v, hf, h => by
    have := moved_encodableVariants vs v r (explicitDiscs vs) 0 hf h
    rw [← onPlatform_explicit q vs] at this
    exact this
  | .num _, _, _, h => h
  | .bool, _, _, h => h
  | .char, _, _, h => h
  | .usize, _, _, h => h
  | .isize, _, _, h => h
  | .nonZero _, _, _, h => h
  | .unit _, _, _, h => h
  | .infallible, _, _, h => h
  | .hashMap _ _, _, _, h => h
  | .hashSet _, _, _, h => h
  | .duration, _, _, h => h
  | .ipv4, _, _, h => h
  | .ipv6, _, _, h => h
  | .ipAddr, _, _, h => h
  | .socketAddrV4, _, _, h => h
  | .socketAddrV6, _, _, h => h
  | .socketAddr, _, _, h => h
  | .str _, _, _, h => h
  | .cStr _, _, _, h => h
  | .sizedStr _, _, _, h => h

theorem moved_encodableFields : (fs : Fields) → (v : fs.Val) → FitsFields q fs v →
    EncodableFields fs v → EncodableFields (onPlatformFields q fs) (movedFields q fs v)
  | .nil, _, _, _ => trivial
  | .cons t fs, v, hf, h => ⟨moved_encodable t v.1 hf.1 h.1, moved_encodableFields fs v.2 hf.2 h.2⟩

theorem moved_encodableVariants : (vs : Variants) → (v : vs.Val) → (r : Repr) →
    (ex : List (Option Nat)) → (j : Nat) → FitsVariants q vs v → EncodableVariants r ex vs j v →
    EncodableVariants r ex (onPlatformVariants q vs) j (movedVariants q vs v)
  | .nil, v, _, _, _, _, _ => nomatch v
  | .cons _ fs vs, .inl v, r, ex, j, hf, h => ⟨h.1, moved_encodableFields fs v hf h.2⟩
  | .cons _ fs vs, .inr v, r, ex, j, hf, h => moved_encodableVariants vs v r ex (j + 1) hf h

end

mutual

theorem moved_wire : (t : Ty) → (v : t.Val) → Fits q t v →
    wire (onPlatform q t) (moved q t v) = wire t v
  | .systemTime _, v, hf => by
    show leBytesInt 8 ((movedTime q v.val).val.tdiv _) = _
    rw [movedTime_val hf.1]
    rfl
  | .wrap _ t, v, hf => moved_wire t v hf
  | .array t _, v, hf => flatMap_moved _ _ _ _ fun x hx => moved_wire t x (hf x hx)
  | .seq _ t, v, hf =>
    congr (congrArg (fun n l => leBytes 2 n ++ l) (List.length_map (as := (show List t.Val from v)) _))
      (flatMap_moved _ _ _ _ fun x hx => moved_wire t x (hf x hx))
  | .option t, none, hf => rfl
  | .option t, some v, hf => congrArg (1 :: ·) (moved_wire t v hf)
  | .result t e, .ok v, hf => congrArg (0 :: ·) (moved_wire t v hf)
  | .result t e, .err v, hf => congrArg (1 :: ·) (moved_wire e v hf)
  | .bound t, .included v, hf => congrArg (0 :: ·) (moved_wire t v hf)
  | .bound t, .excluded v, hf => congrArg (1 :: ·) (moved_wire t v hf)
  | .bound t, .unbounded, hf => rfl
  | .range t, v, hf => congr (congrArg (· ++ ·) (moved_wire t _ hf.1)) (moved_wire t _ hf.2)
  | .rangeInclusive t, v, hf => congr (congrArg (· ++ ·) (moved_wire t _ hf.1)) (moved_wire t _ hf.2)
  | .lock _ t, v, hf => moved_wire t v.val hf
  | .refCell t, v, hf => moved_wire t v.val hf
  | .sizedSlice t n, v, hf => by
    show leBytes 2 (List.map _ _).length ++ _ = _
    rw [List.length_map]
    exact congrArg _ (flatMap_moved _ _ _ _ fun x hx => moved_wire t x (hf x hx))
  | .tuple fs, v, hf => moved_wireFields fs v hf
  | .struct fs, v, hf => moved_wireFields fs v hf
  | .enum r vs, v, hf => by
    show wireVariants r (explicitDiscs (onPlatformVariants q vs)) _ 0 _ = _
    rw [onPlatform_explicit]
    exact moved_wireVariants vs v r (explicitDiscs vs) 0 hf
  | .num _, _, _ => rfl
  | .bool, _, _ => rfl
  | .char, _, _ => rfl
  | .usize, _, _ => rfl
  | .isize, _, _ => rfl
  | .nonZero _, _, _ => rfl
  | .unit _, _, _ => rfl
  | .infallible, v, _ => nomatch v
  | .hashMap _ _, _, _ => rfl
  | .hashSet _, _, _ => rfl
  | .duration, _, _ => rfl
  | .ipv4, _, _ => rfl
  | .ipv6, _, _ => rfl
  | .ipAddr, _, _ => rfl
  | .socketAddrV4, _, _ => rfl
  | .socketAddrV6, _, _ => rfl
  | .socketAddr, _, _ => rfl
  | .str _, _, _ => rfl
  | .cStr _, _, _ => rfl
  | .sizedStr _, _, _ => rfl

theorem moved_wireFields : (fs : Fields) → (v : fs.Val) → FitsFields q fs v →
    wireFields (onPlatformFields q fs) (movedFields q fs v) = wireFields fs v
  | .nil, _, _ => rfl
  | .cons t fs, v, hf =>
    congr (congrArg (· ++ ·) (moved_wire t v.1 hf.1)) (moved_wireFields fs v.2 hf.2)

theorem moved_wireVariants : (vs : Variants) → (v : vs.Val) → (r : Repr) →
    (ex : List (Option Nat)) → (j : Nat) → FitsVariants q vs v →
    wireVariants r ex (onPlatformVariants q vs) j (movedVariants q vs v) = wireVariants r ex vs j v
  | .nil, v, _, _, _, _ => nomatch v
  | .cons _ fs vs, .inl v, r, ex, j, hf => congrArg _ (moved_wireFields fs v hf)
  | .cons _ fs vs, .inr v, r, ex, j, hf => moved_wireVariants vs v r ex (j + 1) hf

end

mutual

theorem maxSize_platform (sizeOf sizeOf' : Ty → Nat) : (t : Ty) → Everywhere NotResult t →
    (onPlatform q t).maxSize sizeOf' = t.maxSize sizeOf
  | .systemTime _, _ => rfl
  | .wrap _ t, h => maxSize_platform sizeOf sizeOf' t h.2
  | .array t n, h => congrArg (· * n) (maxSize_platform sizeOf sizeOf' t h.2)
  | .seq _ t, h => rfl
  | .option t, h => congrArg (1 + ·) (maxSize_platform sizeOf sizeOf' t h.2)
  | .result t e, h => nomatch h.1
  | .bound t, h => congrArg (1 + ·) (maxSize_platform sizeOf sizeOf' t h.2)
  | .range t, h => congrArg (· * 2) (maxSize_platform sizeOf sizeOf' t h.2)
  | .rangeInclusive t, h => congrArg (· * 2) (maxSize_platform sizeOf sizeOf' t h.2)
  | .lock _ t, h => maxSize_platform sizeOf sizeOf' t h.2
  | .refCell t, h => maxSize_platform sizeOf sizeOf' t h.2
  | .sizedSlice t n, h => congrArg (· * n) (maxSize_platform sizeOf sizeOf' t h.2)
  | .tuple fs, h => maxSize_platformFields sizeOf sizeOf' fs h.2
  | .struct fs, h => maxSize_platformFields sizeOf sizeOf' fs h.2
  | .enum r vs, h => maxSize_platformVariants sizeOf sizeOf' vs r h.2
  | .num _, _ => rfl
  | .bool, _ => rfl
  | .char, _ => rfl
  | .usize, _ => rfl
  | .isize, _ => rfl
  | .nonZero _, _ => rfl
  | .unit _, _ => rfl
  | .infallible, _ => rfl
  | .hashMap _ _, _ => rfl
  | .hashSet _, _ => rfl
  | .duration, _ => rfl
  | .ipv4, _ => rfl
  | .ipv6, _ => rfl
  | .ipAddr, _ => rfl
  | .socketAddrV4, _ => rfl
  | .socketAddrV6, _ => rfl
  | .socketAddr, _ => rfl
  | .str _, _ => rfl
  | .cStr _, _ => rfl
  | .sizedStr _, _ => rfl

theorem maxSize_platformFields (sizeOf sizeOf' : Ty → Nat) : (fs : Fields) →
    EverywhereFields NotResult fs →
    (onPlatformFields q fs).maxSize sizeOf' = fs.maxSize sizeOf
  | .nil, _ => rfl
  | .cons t fs, h => by
    show (onPlatform q t).maxSize sizeOf' + (onPlatformFields q fs).maxSize sizeOf' = _
    rw [maxSize_platform sizeOf sizeOf' t h.1, maxSize_platformFields sizeOf sizeOf' fs h.2]
    rfl

theorem maxSize_platformVariants (sizeOf sizeOf' : Ty → Nat) : (vs : Variants) → (r : Repr) →
    EverywhereVariants NotResult vs →
    (onPlatformVariants q vs).maxSize sizeOf' r = vs.maxSize sizeOf r
  | .nil, _, _ => rfl
  | .cons _ fs vs, r, h => by
    show max ((onPlatformFields q fs).maxSize sizeOf' + r.bytes)
      ((onPlatformVariants q vs).maxSize sizeOf' r) = _
    rw [maxSize_platformFields sizeOf sizeOf' fs h.1, maxSize_platformVariants sizeOf sizeOf' vs r h.2]
    rfl

end

end Oct
