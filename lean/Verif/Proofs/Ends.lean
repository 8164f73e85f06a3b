import Verif.Spec.Parts
import Verif.Proofs.RoundTrip
/- How decoders can end, for arbitrary input: what they return, which panics and which undefined
behaviour are possible. -/
namespace Oct
open Spec
set_option linter.unusedVariables false
set_option linter.unusedSectionVars false

/-- Condition on an outcome: on the value, on the panic, on the undefined behaviour. -/
def Res.Within {ε α : Type} (P : α → Prop) (Pn : Panic → Prop) (U : Ub → Prop) : Res ε α → Prop
  | .ok a => P a
  | .err _ => True
  | .panic p => Pn p
  | .ub u => U u

/-- All outcomes of `m` are within the given conditions. -/
def Ends {α : Type} (m : Dec α) (P : α → Prop) (Pn : Panic → Prop) (U : Ub → Prop) : Prop :=
  ∀ i, (m i).1.Within P Pn U

namespace Ends
variable {α β : Type} {Pn : Panic → Prop} {U : Ub → Prop}

theorem pure {P : α → Prop} {a : α} (h : P a) : Ends (Pure.pure a : Dec α) P Pn U := fun _ => h

theorem fail {P : α → Prop} {e : DecErr} : Ends (Dec.fail e : Dec α) P Pn U := fun _ => True.intro

theorem panic {P : α → Prop} {p : Panic} (h : Pn p) : Ends (Dec.panic p : Dec α) P Pn U :=
  fun _ => h

theorem ub {P : α → Prop} {u : Ub} (h : U u) : Ends (Dec.ub u : Dec α) P Pn U := fun _ => h

theorem bind {m : Dec α} {f : α → Dec β} {P : α → Prop} {Q : β → Prop} (hm : Ends m P Pn U)
    (hf : ∀ a, P a → Ends (f a) Q Pn U) : Ends (m >>= f) Q Pn U := by
  intro i
  have h := hm i
  show (Dec.bind m f i).1.Within Q Pn U
  unfold Dec.bind
  generalize m i = x at h ⊢
  obtain ⟨r, i'⟩ := x
  cases r with
  | ok a => exact hf a h i'
  | err e => trivial
  | panic p => exact h
  | ub u => exact h

theorem mapErr {m : Dec α} {P : α → Prop} (g : DecErr → DecErr) (hm : Ends m P Pn U) :
    Ends (m.mapErr g) P Pn U := by
  intro i
  have h := hm i
  unfold Dec.mapErr
  generalize m i = x at h ⊢
  obtain ⟨r, i'⟩ := x
  cases r <;> first | exact h | trivial

theorem mono {m : Dec α} {P Q : α → Prop} (hm : Ends m P Pn U) (h : ∀ a, P a → Q a) :
    Ends m Q Pn U := by
  intro i
  have h' := hm i
  generalize m i = x at h' ⊢
  obtain ⟨r, i'⟩ := x
  cases r with
  | ok a => exact h a h'
  | err e => trivial
  | panic p => exact h'
  | ub u => exact h'

theorem ite {c : Prop} [Decidable c] {m m' : Dec α} {P : α → Prop} (h : c → Ends m P Pn U)
    (h' : ¬ c → Ends m' P Pn U) : Ends (if c then m else m') P Pn U := by
  split
  · exact h ‹_›
  · exact h' ‹_›

theorem dite {c : Prop} [Decidable c] {m : c → Dec α} {m' : ¬ c → Dec α} {P : α → Prop}
    (h : ∀ x, Ends (m x) P Pn U) (h' : ∀ x, Ends (m' x) P Pn U) :
    Ends (if x : c then m x else m' x) P Pn U := by
  split
  · exact h _
  · exact h' _

theorem read (hs : Pn .shortInput) (k : Nat) :
    Ends (Dec.read k) (fun d => d.length = k) Pn U := by
  intro i
  unfold Dec.read Input.read
  by_cases h : i.buf.length - i.pos < k
  · simp only [h, if_true]; exact hs
  · simp only [h, if_false]
    show ((i.buf.drop i.pos).take k).length = k
    simp only [List.length_take, List.length_drop]; omega

theorem readInto (hs : Pn .shortInput) (k : Nat) :
    Ends (Dec.readInto k) (fun d => d.length = k) Pn U := by
  rw [readInto_eq_read]; exact read hs k

end Ends

/-- A failing UTF-8 check points into the text. -/
theorem Utf8.checkFrom_lt : (fuel i : Nat) → (bs : List UInt8) → (j : Nat) →
    checkFrom fuel i bs = some j → i ≤ j ∧ j < i + bs.length
  | 0, i, [], j, h => by simp [checkFrom] at h
  | fuel + 1, i, [], j, h => by simp [checkFrom] at h
  | 0, i, b :: bs, j, h => by simp [checkFrom] at h; simp; omega
  | fuel + 1, i, b :: bs, j, h => by
    unfold checkFrom at h
    split at h
    · simp at h; simp; omega
    · rename_i n hn
      have := checkFrom_lt fuel (i + n) _ j h
      simp only [List.length_drop, List.length_cons] at this ⊢
      omega

theorem Utf8.check_lt (bs : List UInt8) (j : Nat) (h : Utf8.check bs = some j) :
    j < bs.length := by
  have := Utf8.checkFrom_lt _ _ _ _ h; omega

section
variable {Pn : Panic → Prop} {U : Ub → Prop} (hs : Pn .shortInput)
include hs
open Ends

theorem decNum_ends (n : Nat) : Ends (decNum n) (fun x => x < 256 ^ n) Pn U :=
  bind (readInto hs n) fun d hd => Ends.pure (by rw [← hd]; exact fromLe_lt d)

theorem decU8_ends : Ends decU8 (fun x => x < 256) Pn U := decNum_ends hs 1

theorem decUsize_ends : Ends decUsize (fun x => x ≤ 65535) Pn U :=
  (decNum_ends hs 2).mono fun a h => by omega

omit hs in
theorem ofBits_range (signed : Bool) (n x : Nat) (hn : 0 < n) (h : x < 256 ^ n) :
    if signed = true then -(2 : Int) ^ (8 * n - 1) ≤ ofBits signed n x ∧
      ofBits signed n x < (2 : Int) ^ (8 * n - 1)
    else 0 ≤ ofBits signed n x ∧ ofBits signed n x < (2 : Int) ^ (8 * n) := by
  have hp : (2 : Int) ^ (8 * n) = 2 * (2 : Int) ^ (8 * n - 1) := by
    have : 8 * n = (8 * n - 1) + 1 := by omega
    rw [this, Int.pow_succ, Int.mul_comm]; simp
  have hpos : (0 : Int) < (2 : Int) ^ (8 * n - 1) := Int.pow_pos (by omega)
  have hc : (((2 : Nat) ^ (8 * n - 1) : Nat) : Int) = (2 : Int) ^ (8 * n - 1) := by simp
  have h256 := two_pow_int n
  unfold ofBits
  cases signed with
  | true =>
    simp only [if_true, true_and]
    split <;> omega
  | false =>
    simp only [Bool.false_eq_true, false_and, if_false]
    omega

theorem decIsize_ends : Ends decIsize (fun x => -32768 ≤ x ∧ x ≤ 32767) Pn U :=
  bind (decNum_ends hs 2) fun x hx => Ends.pure (by
    have := ofBits_range true 2 x (by omega) hx
    simp at this; omega)

theorem decRepr_ends (r : Repr) :
    Ends (decRepr r) (fun x => r.InRange x ∧ ReprEncodable r x) Pn U := by
  cases r with
  | int k =>
    exact bind (decNum_ends hs k.bytes) fun x hx =>
      Ends.pure ⟨ofBits_range k.signed k.bytes x k.bytes_pos hx, True.intro⟩
  | usize =>
    exact bind (decUsize_ends hs) fun x hx => Ends.pure
      ⟨(by simp [Repr.InRange]), (by simp only [ReprEncodable]; omega)⟩
  | isize => exact (decIsize_ends hs).mono fun x hx => ⟨True.intro, hx⟩

theorem decBool_ends : Ends decBool (fun _ => True) Pn U :=
  bind (decU8_ends hs) fun _ _ => Ends.pure True.intro

theorem decChar_ends (hu : U .invalidChar) : Ends decChar (fun _ => True) Pn U :=
  bind (decNum_ends hs 4) fun _ _ => ite (fun _ => dite (fun _ => Ends.pure True.intro)
    (fun _ => ub hu)) (fun _ => fail)

theorem decNonZero_ends (r : Repr) :
    Ends (decNonZero r) (fun x => ReprEncodable r x.val) Pn U :=
  bind (decRepr_ends hs r) fun x hx => by
    apply Ends.ite
    · intro _; exact fail
    · intro h0
      rw [dif_pos ⟨hx.1, h0⟩]
      exact Ends.pure hx.2

omit hs in
theorem decItems_ends {α : Type} {dec : Dec α} {P : α → Prop} (h : Ends dec P Pn U) (n i : Nat) :
    Ends (decItems dec n i) (fun l => ∀ x ∈ l.val, P x) Pn U := by
  induction n generalizing i with
  | zero => exact Ends.pure (by simp)
  | succ n ih =>
    refine bind (h.mapErr _) fun v hv => bind (ih (i + 1)) fun vs hvs => Ends.pure ?_
    intro x hx
    simp only [List.mem_cons] at hx
    rcases hx with rfl | hx
    · exact hv
    · exact hvs x hx

theorem decSeq_ends {α : Type} {dec : Dec α} {P : α → Prop} (h : Ends dec P Pn U) :
    Ends (decSeq dec) (fun l => l.length ≤ 65535 ∧ ∀ x ∈ l, P x) Pn U :=
  bind (decUsize_ends hs) fun n hn => bind (decItems_ends h n 0) fun l hl =>
    Ends.pure ⟨by rw [l.property]; exact hn, hl⟩

theorem decSizedSlice_ends {α : Type} {dec : Dec α} {P : α → Prop} (h : Ends dec P Pn U) (n : Nat) :
    Ends (decSizedSlice dec n) (fun l => l.val.length ≤ 65535 ∧ ∀ x ∈ l.val, P x) Pn U :=
  bind (decUsize_ends hs) fun len hlen => ite (fun _ => fail) fun hn =>
    bind (decItems_ends h n 0) fun l hl => Ends.pure
      ⟨by simp only [List.length_take]; omega, fun x hx => hl x (List.mem_of_mem_take hx)⟩

omit hs in
theorem mapInsert_all {α β : Type} [DecidableEq α] {P : α × β → Prop} (k : α) (v : β)
    (l : List (α × β)) (hl : ∀ p ∈ l, P p) (h : ∀ k', P (k', v) ∨ k' ≠ k) (hk : P (k, v)) :
    ∀ p ∈ mapInsert k v l, P p := by
  induction l with
  | nil => simp [mapInsert, hk]
  | cons p l ih =>
    obtain ⟨k', v'⟩ := p
    intro q hq
    unfold mapInsert at hq
    split at hq
    · rename_i he
      simp only [List.mem_cons] at hq
      rcases hq with rfl | hq
      · subst he; exact hk
      · exact hl q (by simp [hq])
    · simp only [List.mem_cons] at hq
      rcases hq with rfl | hq
      · exact hl _ (by simp)
      · exact ih (fun p hp => hl p (by simp [hp])) q hq

omit hs in
theorem decMapLoop_ends {α β : Type} [DecidableEq α] {decK : Dec α} {decV : Dec β}
    {P : α → Prop} {Q : β → Prop} (hk : Ends decK P Pn U) (hv : Ends decV Q Pn U) (n i : Nat)
    (m : MapVal α β) (hm : ∀ p ∈ m.val, P p.1 ∧ Q p.2) :
    Ends (decMapLoop decK decV n i m) (fun m => ∀ p ∈ m.val, P p.1 ∧ Q p.2) Pn U := by
  induction n generalizing i m with
  | zero => exact Ends.pure hm
  | succ n ih =>
    refine bind (hk.mapErr _) fun k hk' => bind (hv.mapErr _) fun v hv' => ih _ _ ?_
    exact mapInsert_all (P := fun p => P p.1 ∧ Q p.2) k v m.val hm
      (fun k' => by by_cases h : k' = k
                    · subst h; exact .inl ⟨hk', hv'⟩
                    · exact .inr h) ⟨hk', hv'⟩

theorem decHashMap_ends {α β : Type} [DecidableEq α] {decK : Dec α} {decV : Dec β}
    {P : α → Prop} {Q : β → Prop} (hk : Ends decK P Pn U) (hv : Ends decV Q Pn U) :
    Ends (decHashMap decK decV) (fun m => ∀ p ∈ m.val, P p.1 ∧ Q p.2) Pn U :=
  bind (decUsize_ends hs) fun n _ => decMapLoop_ends hk hv n 0 _ (by simp)

omit hs in
theorem decSetLoop_ends {α : Type} [DecidableEq α] {decK : Dec α} {P : α → Prop}
    (hk : Ends decK P Pn U) (n i : Nat) (s : SetVal α) (hm : ∀ p ∈ s.val, P p) :
    Ends (decSetLoop decK n i s) (fun m => ∀ p ∈ m.val, P p) Pn U := by
  induction n generalizing i s with
  | zero => exact Ends.pure hm
  | succ n ih =>
    refine bind (hk.mapErr _) fun k hk' => ih _ _ ?_
    intro p hp
    simp only [setInsert] at hp
    split at hp
    · exact hm p hp
    · simp only [List.mem_append, List.mem_singleton] at hp
      rcases hp with hp | rfl
      · exact hm p hp
      · exact hk'

theorem decHashSet_ends {α : Type} [DecidableEq α] {decK : Dec α} {P : α → Prop}
    (hk : Ends decK P Pn U) : Ends (decHashSet decK) (fun m => ∀ p ∈ m.val, P p) Pn U :=
  bind (decUsize_ends hs) fun n _ => decSetLoop_ends hk n 0 _ (by simp)

theorem decDuration_ends (hd : Pn .durationOverflow) : Ends decDuration (fun _ => True) Pn U :=
  bind (decNum_ends hs 8) fun _ _ => bind (decNum_ends hs 4) fun _ _ => by
    split
    · exact Ends.pure True.intro
    · exact panic hd

theorem decSystemTime_ends (p : TimePlatform) :
    Ends (decSystemTime p) (fun v => ∃ s : Int, v.val = s * nanosPerSec) Pn U :=
  bind (decNum_ends hs 8) fun x hx => by
    apply Ends.dite
    · intro h
      exact dite (fun _ => Ends.pure ⟨_, rfl⟩) (fun _ => fail)
    · intro h
      refine dite (fun _ => Ends.pure ⟨-((ofBits true 8 x).natAbs : Int), ?_⟩) (fun _ => fail)
      simp only [Int.zero_sub, Int.neg_mul]

theorem decIpv4_ends : Ends decIpv4 (fun _ => True) Pn U :=
  bind (decNum_ends hs 4) fun _ _ => Ends.pure True.intro

theorem decIpv6_ends : Ends decIpv6 (fun _ => True) Pn U :=
  bind (decNum_ends hs 16) fun _ _ => Ends.pure True.intro

theorem decIpAddr_ends : Ends decIpAddr (fun _ => True) Pn U :=
  bind (decU8_ends hs) fun _ _ =>
    ite (fun _ => bind (decIpv4_ends hs) fun _ _ => Ends.pure True.intro) fun _ =>
      ite (fun _ => bind (decIpv6_ends hs) fun _ _ => Ends.pure True.intro) fun _ => fail

theorem decSocketAddrV4_ends : Ends decSocketAddrV4 (fun _ => True) Pn U :=
  bind (decIpv4_ends hs) fun _ _ => bind (decNum_ends hs 2) fun _ _ => Ends.pure True.intro

theorem decSocketAddrV6_ends : Ends decSocketAddrV6 (fun _ => True) Pn U :=
  bind (decIpv6_ends hs) fun _ _ => bind (decNum_ends hs 2) fun _ _ =>
    bind (decNum_ends hs 4) fun _ _ => bind (decNum_ends hs 4) fun _ _ => Ends.pure True.intro

theorem decSocketAddr_ends : Ends decSocketAddr (fun _ => True) Pn U :=
  bind (decU8_ends hs) fun _ _ =>
    ite (fun _ => bind (decSocketAddrV4_ends hs) fun _ _ => Ends.pure True.intro) fun _ =>
      ite (fun _ => bind (decSocketAddrV6_ends hs) fun _ _ => Ends.pure True.intro) fun _ => fail

theorem decString_ends : Ends decString (fun v => v.val.length ≤ 65535) Pn U :=
  bind (decUsize_ends hs) fun n hn => bind (read hs n) fun d hd => by
    split
    · exact Ends.pure (by simp only; omega)
    · rename_i i h
      split
      · exact fail
      · rename_i h'
        have := Utf8.check_lt d i h
        simp at h'; omega

theorem decCString_ends : Ends decCString (fun v => v.val.length ≤ 65535) Pn U :=
  bind (decUsize_ends hs) fun n hn => bind (read hs n) fun d hd =>
    dite (fun _ => Ends.pure (by simp only; omega)) fun _ => fail

omit hs in
/-- `SizedStr::from_utf8` never indexes out of bounds. -/
theorem sizedStrFromUtf8_ne_none (n : Nat) (s : List Byte) : sizedStrFromUtf8 n s ≠ none := by
  unfold sizedStrFromUtf8
  split
  · simp
  · split
    · simp
    · rename_i i h
      split
      · simp
      · rename_i h'
        have := Utf8.check_lt s i h
        simp at h'; omega

omit hs in
theorem sizedStrFromUtf8_val (n : Nat) (s : List Byte) (v)
    (h : sizedStrFromUtf8 n s = some (.ok v)) : v.val = s := by
  unfold sizedStrFromUtf8 at h
  split at h
  · simp at h
  · split at h
    · simp at h; rw [← h]
    · split at h <;> simp at h

theorem decSizedStr_ends (n : Nat) : Ends (decSizedStr n) (fun v => v.val.length ≤ 65535) Pn U :=
  bind (decUsize_ends hs) fun k hk => bind (read hs k) fun d hd => by
    split
    · rename_i s h
      refine Ends.pure ?_
      rw [sizedStrFromUtf8_val n d s h]; omega
    · exact fail
    · rename_i h; exact absurd h (sizedStrFromUtf8_ne_none n d)

end

/-- What the types in `t` may cause: `Duration` and `Infallible` panics, invalid `char`s. -/
def Allows (Pn : Panic → Prop) (U : Ub → Prop) : Ty → Prop
  | .duration => Pn .durationOverflow
  | .infallible => Pn .infallible
  | .char => U .invalidChar
  | _ => True

section
variable {Pn : Panic → Prop} {U : Ub → Prop} {T : Prop} (hs : Pn .shortInput)
open Ends

/-- Decoded values are encodable, except for the earliest `SystemTime`, and carry nothing that the
format drops. -/
def Fixed (t : Ty) (v : t.Val) : Prop :=
  (AllParts NotMinTime t v → Encodable t v) ∧ carried t v = v

/-- See `Fixed`. -/
def FixedFields (fs : Fields) (v : fs.Val) : Prop :=
  (AllPartsFields NotMinTime fs v → EncodableFields fs v) ∧ carriedFields fs v = v

theorem map_fixed {α : Type} {c : α → α} {l : List α} (h : ∀ x ∈ l, c x = x) : l.map c = l := by
  induction l with
  | nil => rfl
  | cons a l ih =>
    rw [List.map_cons, h a (by simp), ih (fun x hx => h x (by simp [hx]))]

include hs

mutual

theorem Ty.decode_ends : (t : Ty) → Everywhere (Allows Pn U) t →
    Ends t.decode (Fixed t) Pn U
  | .num k, _ => bind (decNum_ends hs _) fun _ _ => Ends.pure ⟨fun _ => True.intro, rfl⟩
  | .bool, _ => (decBool_ends hs).mono fun _ _ => ⟨fun _ => True.intro, rfl⟩
  | .char, h => (decChar_ends hs h).mono fun _ _ => ⟨fun _ => True.intro, rfl⟩
  | .usize, _ => (decUsize_ends hs).mono fun _ h => ⟨fun _ => h, rfl⟩
  | .isize, _ => (decIsize_ends hs).mono fun _ h => ⟨fun _ => h, rfl⟩
  | .nonZero r, _ => (decNonZero_ends hs r).mono fun _ h => ⟨fun _ => h, rfl⟩
  | .unit _, _ => Ends.pure ⟨fun _ => True.intro, rfl⟩
  | .infallible, h => panic h
  | .wrap _ t, h => (Ty.decode_ends t h.2).mono fun v hv => ⟨fun hq => hv.1 hq.2, hv.2⟩
  | .array t n, h => (decItems_ends (Ty.decode_ends t h.2) n 0).mono fun v hv =>
      ⟨fun hm x hx => (hv x hx).1 (hm.2 x hx), Subtype.ext (map_fixed fun x hx => (hv x hx).2)⟩
  | .seq _ t, h => (decSeq_ends hs (Ty.decode_ends t h.2)).mono fun v hv =>
      ⟨fun hm => ⟨hv.1, fun x hx => (hv.2 x hx).1 (hm.2 x hx)⟩, map_fixed fun x hx => (hv.2 x hx).2⟩
  | .hashMap k v, h =>
    (@decHashMap_ends _ _ hs _ _ k.decEq _ _ _ _ (Ty.decode_ends k h.2.1)
      (Ty.decode_ends v h.2.2)).mono fun m hm => ⟨fun hq p hp => ⟨(hm p hp).1.1 (hq.2 p hp).1, (hm p hp).2.1 (hq.2 p hp).2⟩, rfl⟩
  | .hashSet k, h =>
    (@decHashSet_ends _ _ hs _ k.decEq _ _ (Ty.decode_ends k h.2)).mono fun m hm =>
      ⟨fun hq p hp => (hm p hp).1 (hq.2 p hp), rfl⟩
  | .option t, h => bind (decBool_ends hs) fun b _ => by
      refine ite (fun _ => bind (Ty.decode_ends t h.2) fun v hv => Ends.pure ?_)
        (fun _ => Ends.pure ⟨fun _ => True.intro, rfl⟩)
      exact ⟨fun hq => hv.1 hq.2, congrArg some hv.2⟩
  | .result t e, h => bind (decBool_ends hs) fun b _ => by
      refine ite (fun _ => bind ((Ty.decode_ends e h.2.2).mapErr _) fun v hv => Ends.pure ?_)
        (fun _ => bind ((Ty.decode_ends t h.2.1).mapErr _) fun v hv => Ends.pure ?_)
      · exact ⟨fun hq => hv.1 hq.2, congrArg ResultVal.err hv.2⟩
      · exact ⟨fun hq => hv.1 hq.2, congrArg ResultVal.ok hv.2⟩
  | .bound t, h => bind (decU8_ends hs) fun b _ => by
      refine ite (fun _ => bind ((Ty.decode_ends t h.2).mapErr _) fun v hv => Ends.pure ?_)
        (fun _ => ite (fun _ => bind ((Ty.decode_ends t h.2).mapErr _) fun v hv => Ends.pure ?_)
          (fun _ => ite (fun _ => Ends.pure ⟨fun _ => True.intro, rfl⟩) (fun _ => fail)))
      · exact ⟨fun hq => hv.1 hq.2, congrArg BoundVal.included hv.2⟩
      · exact ⟨fun hq => hv.1 hq.2, congrArg BoundVal.excluded hv.2⟩
  | .range t, h => bind (Ty.decode_ends t h.2) fun a ha => bind (Ty.decode_ends t h.2) fun b hb =>
      Ends.pure ⟨fun hq => ⟨ha.1 hq.2.1, hb.1 hq.2.2⟩, by
        show RangeVal.mk (carried t a) (carried t b) = _
        rw [ha.2, hb.2]⟩
  | .rangeInclusive t, h =>
    bind (Ty.decode_ends t h.2) fun a ha => bind (Ty.decode_ends t h.2) fun b hb =>
      Ends.pure ⟨fun hq => ⟨ha.1 hq.2.1, hb.1 hq.2.2⟩, by
        show RangeInclusiveVal.mk (carried t a) (carried t b) false = _
        rw [ha.2, hb.2]⟩
  | .lock _ t, h => bind (Ty.decode_ends t h.2) fun a ha => Ends.pure ⟨fun hq => ha.1 hq.2, by
        show LockVal.mk false (carried t a) = _
        rw [ha.2]⟩
  | .refCell t, h => bind (Ty.decode_ends t h.2) fun a ha => Ends.pure ⟨fun hq => ⟨rfl, ha.1 hq.2⟩, by
        show RefCellVal.mk false (carried t a) = _
        rw [ha.2]⟩
  | .duration, h => (decDuration_ends hs h).mono fun _ _ => ⟨fun _ => True.intro, rfl⟩
  | .systemTime p, h => (decSystemTime_ends hs p).mono fun v hv => by
      refine ⟨?_, ?_⟩
      · exact id
      · obtain ⟨s, hs'⟩ := hv
        apply Subtype.ext
        show v.val.tdiv nanosPerSec * nanosPerSec = v.val
        rw [hs', Int.mul_tdiv_cancel _ (by decide)]
  | .ipv4, _ => (decIpv4_ends hs).mono fun _ _ => ⟨fun _ => True.intro, rfl⟩
  | .ipv6, _ => (decIpv6_ends hs).mono fun _ _ => ⟨fun _ => True.intro, rfl⟩
  | .ipAddr, _ => (decIpAddr_ends hs).mono fun _ _ => ⟨fun _ => True.intro, rfl⟩
  | .socketAddrV4, _ => (decSocketAddrV4_ends hs).mono fun _ _ => ⟨fun _ => True.intro, rfl⟩
  | .socketAddrV6, _ => (decSocketAddrV6_ends hs).mono fun _ _ => ⟨fun _ => True.intro, rfl⟩
  | .socketAddr, _ => (decSocketAddr_ends hs).mono fun _ _ => ⟨fun _ => True.intro, rfl⟩
  | .str _, _ => (decString_ends hs).mono fun _ h => ⟨fun _ => h, rfl⟩
  | .cStr _, _ => (decCString_ends hs).mono fun _ h => ⟨fun _ => h, rfl⟩
  | .sizedStr n, _ => (decSizedStr_ends hs n).mono fun _ h => ⟨fun _ => h, rfl⟩
  | .sizedSlice t n, h => (decSizedSlice_ends hs (Ty.decode_ends t h.2) n).mono fun v hv =>
      ⟨fun hm => ⟨hv.1, fun x hx => (hv.2 x hx).1 (hm.2 x hx)⟩, Subtype.ext (map_fixed fun x hx => (hv.2 x hx).2)⟩
  | .tuple fs, h => (Fields.decode_ends fs h.2 _).mono fun v hv => ⟨fun hq => hv.1 hq.2, hv.2⟩
  | .struct fs, h => (Fields.decode_ends fs h.2 _).mono fun v hv => ⟨fun hq => hv.1 hq.2, hv.2⟩
  | .enum r vs, h => bind (decRepr_ends hs r) fun x hx =>
      (Variants.decode_ends vs h.2 r none (explicitDiscs vs) 0 (by simp) (by simp) x hx.2).mono
        fun v hv => ⟨fun hq => hv.1 hq.2, hv.2⟩

theorem Fields.decode_ends : (fs : Fields) →
    EverywhereFields (Allows Pn U) fs → (g : DecErr → DecErr) →
    Ends (fs.decode g) (FixedFields fs) Pn U
  | .nil, _, _ => Ends.pure ⟨fun _ => True.intro, rfl⟩
  | .cons t fs, h, g => bind ((Ty.decode_ends t h.1).mapErr g) fun v hv =>
      bind (Fields.decode_ends fs h.2 g) fun vs hvs => Ends.pure ⟨fun hq => ⟨hv.1 hq.1, hvs.1 hq.2⟩, by
        show (carried t v, carriedFields fs vs) = _
        rw [hv.2, hvs.2]⟩

theorem Variants.decode_ends : (vs : Variants) →
    EverywhereVariants (Allows Pn U) vs → (r : Repr) → (prev : Option Nat) →
    (explicit : List (Option Nat)) → (j : Nat) → (explicit.drop j = explicitDiscs vs) →
    (prev = if j = 0 then none else some (discOf explicit (j - 1))) →
    (x : Int) → ReprEncodable r x →
    Ends (vs.decode prev x) (fun v => (AllPartsVariants NotMinTime vs v → EncodableVariants r explicit vs j v) ∧
      carriedVariants vs v = v) Pn U
  | .nil, _, _, _, _, _, _, _, _, _ => fail
  | .cons d fs vs, h, r, prev, explicit, j, hd, hp, x, hx => by
    have hdisc : discOf explicit j = nextDisc prev d := by
      rw [hp]
      apply discOf_step
      have := congrArg (·[0]?) hd
      simpa [explicitDiscs] using this
    have hdrop : explicit.drop (j + 1) = explicitDiscs vs := by
      have := congrArg List.tail hd
      simpa [explicitDiscs] using this
    refine ite (fun he => ?_) (fun _ => ?_)
    · refine bind (Fields.decode_ends fs h.1 _) fun v hv => Ends.pure ⟨fun hq => ⟨?_, hv.1 hq⟩, ?_⟩
      · rw [hdisc, ← he]; exact hx
      · exact congrArg Sum.inl hv.2
    · refine bind (Variants.decode_ends vs h.2 r (some (nextDisc prev d)) explicit (j + 1) hdrop
        (by simp [hdisc]) x hx) fun v hv => Ends.pure ⟨hv.1, ?_⟩
      exact congrArg Sum.inr hv.2

end

end

end Oct
