import Verif.Proofs.Encode
import Verif.Spec.RoundTrip
import Verif.Proofs.Ends
import Verif.Spec.Parts
/- With enough room, encoders do not panic, save for one corner case of `SystemTime`. -/
namespace Oct
open Spec
set_option linter.unusedVariables false

/-- `m` writes something, and ends with success or an error or a panic in `Pn`. -/
def Quiet (m : Enc Unit) (Pn : Panic → Prop) : Prop :=
  ∃ w r, Emits m w r ∧ r.Within (fun _ => True) Pn (fun _ => False)

namespace Quiet
variable {Pn : Panic → Prop}

theorem pure : Quiet (Enc.pure ()) Pn := ⟨_, _, Emits.pure, True.intro⟩
theorem fail (e : EncErr) : Quiet (Enc.fail e) Pn := ⟨_, _, Emits.fail e, True.intro⟩
theorem write (d : List Byte) : Quiet (Enc.write d) Pn := ⟨_, _, Emits.write d, True.intro⟩
theorem panic {p : Panic} (h : Pn p) : Quiet (Enc.panic p) Pn := ⟨_, _, Emits.panic p, h⟩

theorem mapErr {m : Enc Unit} (g : EncErr → EncErr) (h : Quiet m Pn) : Quiet (m.mapErr g) Pn := by
  obtain ⟨w, r, h1, h2⟩ := h
  refine ⟨w, _, h1.mapErr g, ?_⟩
  cases r <;> first | exact h2 | trivial

theorem bind {m : Enc Unit} {f : Unit → Enc Unit} (hm : Quiet m Pn) (hf : Quiet (f ()) Pn) :
    Quiet (m >>= f) Pn := by
  obtain ⟨w, r, h1, h2⟩ := hm
  obtain ⟨w', r', h1', h2'⟩ := hf
  by_cases hr : r = .ok ()
  · subst hr
    exact ⟨_, _, h1.bind_ok h1', h2'⟩
  · exact ⟨_, _, h1.bind_stop hr, h2⟩

end Quiet

variable {Pn : Panic → Prop}
open Quiet

theorem encNum_quiet (n x : Nat) : Quiet (encNum n x) Pn := write _
theorem encU8_quiet (x : Nat) : Quiet (encU8 x) Pn := write _

theorem encUsize_quiet (x : Nat) : Quiet (encUsize x) Pn := by
  unfold encUsize; split
  · exact write _
  · exact fail _

theorem encIsize_quiet (x : Int) : Quiet (encIsize x) Pn := by
  unfold encIsize; split
  · exact write _
  · exact fail _

theorem encRepr_quiet (r : Repr) (x : Int) : Quiet (encRepr r x) Pn := by
  cases r with
  | int k => exact write _
  | usize => exact encUsize_quiet _
  | isize => exact encIsize_quiet _

theorem encBool_quiet (b : Bool) : Quiet (encBool b) Pn := write _

theorem encItems_quiet {α : Type} {enc : α → Enc Unit} (wrap : Nat → EncErr → EncErr) (i : Nat)
    (l : List α) (h : ∀ x ∈ l, Quiet (enc x) Pn) : Quiet (encItems enc wrap i l) Pn := by
  induction l generalizing i with
  | nil => exact pure
  | cons a l ih =>
    exact bind ((h a (by simp)).mapErr _) (ih (i + 1) (fun x hx => h x (by simp [hx])))

theorem encSlice_quiet {α : Type} {enc : α → Enc Unit} (l : List α)
    (h : ∀ x ∈ l, Quiet (enc x) Pn) : Quiet (encSlice enc l) Pn :=
  bind ((encUsize_quiet _).mapErr _) (encItems_quiet _ _ _ h)

theorem encLinkedList_quiet {α : Type} {enc : α → Enc Unit} (l : List α)
    (h : ∀ x ∈ l, Quiet (enc x) Pn) : Quiet (encLinkedList enc l) Pn :=
  bind ((encUsize_quiet _).mapErr _) (encItems_quiet _ _ _ h)

theorem encBytes_quiet (l : List Byte) : Quiet (encBytes l) Pn :=
  encSlice_quiet l fun _ _ => encU8_quiet _

theorem encHashMap_quiet {α β : Type} {ek : α → Enc Unit} {ev : β → Enc Unit} (l : List (α × β))
    (h : ∀ p ∈ l, Quiet (ek p.1) Pn ∧ Quiet (ev p.2) Pn) : Quiet (encHashMap ek ev l) Pn := by
  induction l with
  | nil => exact pure
  | cons a l ih =>
    exact bind (h a (by simp)).1 (bind (h a (by simp)).2 (ih (fun x hx => h x (by simp [hx]))))

theorem encHashSet_quiet {α : Type} {ek : α → Enc Unit} (l : List α)
    (h : ∀ p ∈ l, Quiet (ek p) Pn) : Quiet (encHashSet ek l) Pn := by
  induction l with
  | nil => exact pure
  | cons a l ih =>
    exact bind (h a (by simp)) (ih (fun x hx => h x (by simp [hx])))

theorem encSystemTime_quiet (p : TimePlatform) (ns : Int) (hl : p.lo ≤ ns)
    (h : Pn .arithmeticOverflow ∨
      ¬ (p.overflowChecks = true ∧ ns = -(2 : Int) ^ 63 * nanosPerSec)) : Quiet (encSystemTime p ns) Pn := by
  unfold encSystemTime
  split
  · exact write _
  · simp only
    split
    · rename_i h63
      split
      · rename_i hc
        rcases h with h | h
        · exact panic h
        · refine absurd ⟨hc, ?_⟩ h
          have h1 := p.lo_bound
          have hN : ((nanosPerSec : Nat) : Int) = 1000000000 := rfl
          rw [hN] at h1 h63 ⊢
          omega
      · exact write _
    · exact write _

mutual

theorem Ty.encode_quiet : (t : Ty) → (v : t.Val) →
    (Pn .arithmeticOverflow ∨ AllParts NotMinTime t v) → Quiet (t.encode v) Pn
  | .num _, v, _ => write _
  | .bool, v, _ => write _
  | .char, v, _ => write _
  | .usize, v, _ => encUsize_quiet v
  | .isize, v, _ => encIsize_quiet v
  | .nonZero r, v, _ => encRepr_quiet r v.val
  | .unit _, _, _ => pure
  | .infallible, v, _ => nomatch v
  | .wrap _ t, v, h => Ty.encode_quiet t v (h.imp_right (·.2))
  | .array t _, v, h => encItems_quiet _ _ _ fun x hx => Ty.encode_quiet t x (h.imp_right (·.2 x hx))
  | .seq .slice t, v, h => encSlice_quiet v fun x hx => Ty.encode_quiet t x (h.imp_right (·.2 x hx))
  | .seq .vec t, v, h => encSlice_quiet v fun x hx => Ty.encode_quiet t x (h.imp_right (·.2 x hx))
  | .seq .linkedList t, v, h =>
    encLinkedList_quiet v fun x hx => Ty.encode_quiet t x (h.imp_right (·.2 x hx))
  | .hashMap k v, m, h => encHashMap_quiet m.val fun p hp =>
      ⟨Ty.encode_quiet k p.1 (h.imp_right (·.2 p hp |>.1)),
        Ty.encode_quiet v p.2 (h.imp_right (·.2 p hp |>.2))⟩
  | .hashSet k, s, h => encHashSet_quiet s.val fun x hx => Ty.encode_quiet k x (h.imp_right (·.2 x hx))
  | .option t, none, h => write _
  | .option t, some v, h => bind (write _) (Ty.encode_quiet t v (h.imp_right (·.2)))
  | .result t e, .ok v, h => bind (write _) (Ty.encode_quiet t v (h.imp_right (·.2)))
  | .result t e, .err v, h =>
    bind (write _) ((Ty.encode_quiet e v (h.imp_right (·.2))).mapErr _)
  | .bound t, .included v, h => bind (write _) ((Ty.encode_quiet t v (h.imp_right (·.2))).mapErr _)
  | .bound t, .excluded v, h => bind (write _) ((Ty.encode_quiet t v (h.imp_right (·.2))).mapErr _)
  | .bound t, .unbounded, h => write _
  | .range t, v, h =>
    bind (Ty.encode_quiet t v.start (h.imp_right (·.2.1)))
      (Ty.encode_quiet t v.stop (h.imp_right (·.2.2)))
  | .rangeInclusive t, v, h =>
    bind (Ty.encode_quiet t v.start (h.imp_right (·.2.1)))
      (Ty.encode_quiet t v.stop (h.imp_right (·.2.2)))
  | .lock _ t, v, h => Ty.encode_quiet t v.val (h.imp_right (·.2))
  | .refCell t, v, h => by
    show Quiet (if _ then _ else _) _
    split
    · exact fail _
    · exact (Ty.encode_quiet t v.val (h.imp_right (·.2))).mapErr _
  | .duration, v, _ => bind (write _) (write _)
  | .systemTime p, v, h => encSystemTime_quiet p v.val v.property.1 h
  | .ipv4, v, _ => write _
  | .ipv6, v, _ => write _
  | .ipAddr, .v4 a, _ => bind ((write _).mapErr _) ((write _).mapErr _)
  | .ipAddr, .v6 a, _ => bind ((write _).mapErr _) ((write _).mapErr _)
  | .socketAddrV4, v, _ => bind (write _) (write _)
  | .socketAddrV6, v, _ => bind (write _) (bind (write _) (bind (write _) (write _)))
  | .socketAddr, .v4 a, _ => bind (write _) (bind (write _) (write _))
  | .socketAddr, .v6 a, _ =>
    bind (write _) (bind (write _) (bind (write _) (bind (write _) (write _))))
  | .str _, v, _ => encBytes_quiet v.val
  | .cStr _, v, _ => encBytes_quiet v.val
  | .sizedStr _, v, _ => encBytes_quiet v.val
  | .sizedSlice t _, v, h => encSlice_quiet v.val fun x hx => Ty.encode_quiet t x (h.imp_right (·.2 x hx))
  | .tuple fs, v, h => Fields.encode_quiet fs v (h.imp_right (·.2)) _
  | .struct fs, v, h => Fields.encode_quiet fs v (h.imp_right (·.2)) _
  | .enum r vs, v, h => Variants.encode_quiet vs v (h.imp_right (·.2)) r none

theorem Fields.encode_quiet : (fs : Fields) → (v : fs.Val) →
    (Pn .arithmeticOverflow ∨ AllPartsFields NotMinTime fs v) → (g : EncErr → EncErr) →
    Quiet (fs.encode g v) Pn
  | .nil, _, _, _ => pure
  | .cons t fs, v, h, g => bind ((Ty.encode_quiet t v.1 (h.imp_right (·.1))).mapErr g)
      (Fields.encode_quiet fs v.2 (h.imp_right (·.2)) g)

theorem Variants.encode_quiet : (vs : Variants) → (v : vs.Val) →
    (Pn .arithmeticOverflow ∨ AllPartsVariants NotMinTime vs v) → (r : Repr) →
    (prev : Option Nat) → Quiet (vs.encode r prev v) Pn
  | .nil, v, _, _, _ => nomatch v
  | .cons d fs vs, .inl v, h, r, prev =>
    bind ((encRepr_quiet _ _).mapErr _) (Fields.encode_quiet fs v h _)
  | .cons d fs vs, .inr v, h, r, prev => Variants.encode_quiet vs v h r _

end

end Oct
