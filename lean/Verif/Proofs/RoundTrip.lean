import Verif.Proofs.Encode
import Verif.Proofs.Local
import Verif.Spec.RoundTrip
/- `Ty.decode` inverts `Spec.wire`. -/
namespace Oct
open Spec
set_option linter.unusedVariables false

/-- `m` reads exactly `w` and returns `a`, whatever is around. -/
def Decodes {α : Type} (m : Dec α) (w : List Byte) (a : α) : Prop :=
  ∀ pre rest, m ⟨pre ++ (w ++ rest), pre.length⟩ = (.ok a, ⟨pre ++ (w ++ rest), pre.length + w.length⟩)

namespace Decodes
variable {α β : Type}

theorem pure (a : α) : Decodes (Pure.pure a) [] a := by
  intro pre rest; rfl

theorem bind {m : Dec α} {f : α → Dec β} {w w' : List Byte} {a : α} {b : β}
    (hm : Decodes m w a) (hf : Decodes (f a) w' b) : Decodes (m >>= f) (w ++ w') b := by
  intro pre rest
  show Dec.bind m f _ = _
  unfold Dec.bind
  rw [List.append_assoc, hm pre (w' ++ rest)]
  have := hf (pre ++ w) rest
  rw [List.append_assoc, List.length_append] at this
  simp only [this, List.length_append, Nat.add_assoc]

theorem map {m : Dec α} {f : α → Dec β} {w : List Byte} {a : α} {b : β}
    (hm : Decodes m w a) (hf : f a = Pure.pure b) : Decodes (m >>= f) w b := by
  have := hm.bind (f := f) (w' := []) (b := b) (by rw [hf]; exact pure b)
  rwa [List.append_nil] at this

theorem mapErr {m : Dec α} {w : List Byte} {a : α} (g : DecErr → DecErr) (hm : Decodes m w a) :
    Decodes (m.mapErr g) w a := by
  intro pre rest
  unfold Dec.mapErr
  rw [hm]
  rfl

theorem read (w : List Byte) : Decodes (Dec.read w.length) w w := by
  intro pre rest
  unfold Dec.read Input.read
  have h : ¬ ((pre ++ (w ++ rest)).length - pre.length < w.length) := by
    simp only [List.length_append]; omega
  simp only [h, if_false, List.drop_left, List.take_left']

theorem readInto (w : List Byte) : Decodes (Dec.readInto w.length) w w := by
  rw [readInto_eq_read]; exact read w

end Decodes

theorem decNum_decodes (n x : Nat) (h : x < 256 ^ n) : Decodes (decNum n) (leBytes n x) x := by
  have := Decodes.readInto (leBytes n x)
  rw [leBytes_length] at this
  refine this.map ?_
  rw [← toLe_eq_leBytes, fromLe_toLe, Nat.mod_eq_of_lt h]

theorem decNum_decodes' (n x : Nat) : Decodes (decNum n) (leBytes n x) (x % 256 ^ n) := by
  have := Decodes.readInto (leBytes n x)
  rw [leBytes_length] at this
  refine this.map ?_
  rw [← toLe_eq_leBytes, fromLe_toLe]

theorem decU8_decodes (x : Nat) (h : x < 256) : Decodes decU8 [UInt8.ofNat x] x := by
  have := decNum_decodes 1 x (by simpa using h)
  rwa [leBytes_one, Nat.mod_eq_of_lt h] at this

theorem decUsize_decodes (x : Nat) (h : x ≤ 65535) : Decodes decUsize (leBytes 2 x) x :=
  decNum_decodes 2 x (by simp; omega)

theorem two_pow_eq (n : Nat) : (2 : Nat) ^ (8 * n) = 256 ^ n := by
  rw [Nat.pow_mul]

theorem two_pow_int (n : Nat) : (2 : Int) ^ (8 * n) = ((256 ^ n : Nat) : Int) := by
  rw [← two_pow_eq]; simp

/-- Two's complement is inverted by reading the bit pattern. -/
theorem ofBits_twos (signed : Bool) (n : Nat) (hn : 0 < n) (x : Int)
    (h : if signed = true then -(2 : Int) ^ (8 * n - 1) ≤ x ∧ x < (2 : Int) ^ (8 * n - 1)
      else 0 ≤ x ∧ x < (2 : Int) ^ (8 * n)) :
    ofBits signed n (x % (2 : Int) ^ (8 * n)).toNat = x := by
  have hp : (2 : Int) ^ (8 * n) = 2 * (2 : Int) ^ (8 * n - 1) := by
    have : 8 * n = (8 * n - 1) + 1 := by omega
    rw [this, Int.pow_succ, Int.mul_comm]; simp
  have hpos : (0 : Int) < (2 : Int) ^ (8 * n - 1) := Int.pow_pos (by omega)
  have hc : (((2 : Nat) ^ (8 * n - 1) : Nat) : Int) = (2 : Int) ^ (8 * n - 1) := by simp
  unfold ofBits
  cases signed with
  | true =>
    simp only [if_true] at h
    simp only [true_and]
    by_cases hx : 0 ≤ x
    · rw [Int.emod_eq_of_lt hx (by omega)]
      rw [if_neg (by omega)]
      omega
    · have : x % (2 : Int) ^ (8 * n) = x + (2 : Int) ^ (8 * n) := by
        rw [← Int.add_emod_right, Int.emod_eq_of_lt (by omega) (by omega)]
      rw [this, if_pos (by omega)]
      omega
  | false =>
    simp only [Bool.false_eq_true, if_false] at h
    simp only [Bool.false_eq_true, false_and, if_false]
    rw [Int.emod_eq_of_lt h.1 h.2]
    omega

theorem emod_toNat_lt (x : Int) (n : Nat) : (x % (2 : Int) ^ (8 * n)).toNat < 256 ^ n := by
  have h : (0 : Int) < (2 : Int) ^ (8 * n) := Int.pow_pos (by omega)
  have h1 := Int.emod_lt_of_pos x h
  have h2 := Int.emod_nonneg x (by omega : (2 : Int) ^ (8 * n) ≠ 0)
  rw [two_pow_int] at h1 h2 ⊢
  omega

theorem decIsize_decodes (x : Int) (h : -32768 ≤ x ∧ x ≤ 32767) :
    Decodes decIsize (leBytesInt 2 x) x := by
  refine (decNum_decodes 2 _ (emod_toNat_lt x 2)).map ?_
  rw [ofBits_twos true 2 (by omega) x (by simp; omega)]

theorem IntKind.bytes_pos (k : IntKind) : 0 < k.bytes := by cases k <;> decide

theorem decRepr_decodes (r : Repr) (x : Int) (h : r.InRange x) (he : ReprEncodable r x) :
    Decodes (decRepr r) (reprWire r x) x := by
  cases r with
  | int k =>
    refine (decNum_decodes k.bytes _ (emod_toNat_lt x k.bytes)).map ?_
    rw [ofBits_twos k.signed k.bytes k.bytes_pos x h]
  | usize =>
    simp only [Repr.InRange] at h
    simp only [ReprEncodable] at he
    refine (decNum_decodes 2 _ (emod_toNat_lt x 2)).map ?_
    have : x % (2 : Int) ^ (8 * 2) = x := Int.emod_eq_of_lt h (by omega)
    rw [this, Int.toNat_of_nonneg h]
  | isize => exact decIsize_decodes x he

theorem decBool_decodes (b : Bool) : Decodes decBool [if b = true then 1 else 0] b := by
  cases b with
  | false => exact (decU8_decodes 0 (by omega)).map rfl
  | true => exact (decU8_decodes 1 (by omega)).map rfl

theorem decChar_decodes (c : Char) : Decodes decChar (leBytes 4 c.toNat) c := by
  have hv : c.toNat.isValidChar := c.valid
  have hlt : c.toNat < 256 ^ 4 := by
    rcases hv with h | h <;> omega
  refine (decNum_decodes 4 c.toNat hlt).map ?_
  have h1 : c.toNat ≤ 0xD7FF ∨ (0xDE00 ≤ c.toNat ∧ c.toNat ≤ 0x10FFFF) := by
    rcases hv with h | h <;> omega
  rw [if_pos h1, dif_pos hv]
  congr 1

variable {α β : Type}

theorem decItems_decodes {dec : Dec α} {w : α → List Byte} {c : α → α} (n : Nat) (l : List α)
    (hl : l.length = n) (h : ∀ x ∈ l, Decodes dec (w x) (c x)) (i : Nat) :
    Decodes (decItems dec n i) (l.flatMap w) ⟨l.map c, by simp [hl]⟩ := by
  induction l generalizing n i with
  | nil => subst hl; exact Decodes.pure _
  | cons a l ih =>
    cases n with
    | zero => simp at hl
    | succ n =>
      have hl' : l.length = n := by simpa using hl
      have h1 := (h a (by simp)).mapErr (fun e => .badItem (.item i e))
      have h2 := ih n hl' (fun x hx => h x (by simp [hx])) (i + 1)
      rw [List.flatMap_cons]
      exact h1.bind (h2.map rfl)

theorem decSeq_decodes {dec : Dec α} {w : α → List Byte} {c : α → α} (l : List α)
    (hl : l.length ≤ 65535) (h : ∀ x ∈ l, Decodes dec (w x) (c x)) :
    Decodes (decSeq dec) (leBytes 2 l.length ++ l.flatMap w) (l.map c) :=
  (decUsize_decodes l.length hl).bind ((decItems_decodes l.length l rfl h 0).map rfl)

theorem decItems_blank {dec : Dec α} {x : α} (h : Decodes dec [] x) (n i : Nat) :
    Decodes (decItems dec n i) [] ⟨List.replicate n x, List.length_replicate⟩ := by
  induction n generalizing i with
  | zero => exact Decodes.pure _
  | succ n ih => exact (h.mapErr _).bind ((ih (i + 1)).map rfl)

theorem decItems_append {dec : Dec α} {w : α → List Byte} {c : α → α} (n : Nat) (l : List α)
    (h : ∀ x ∈ l, Decodes dec (w x) (c x)) {x : α} (hx : Decodes dec [] x) (i : Nat) :
    Decodes (decItems dec (l.length + n) i) (l.flatMap w)
      ⟨l.map c ++ List.replicate n x, by simp⟩ := by
  induction l generalizing i with
  | nil =>
    have := decItems_blank hx (0 + n) i
    simpa using this
  | cons a l ih =>
    have h1 := (h a (by simp)).mapErr (fun e => .badItem (.item i e))
    have h2 := ih (fun x hx => h x (by simp [hx])) (i + 1)
    have e : (a :: l).length + n = (l.length + n) + 1 := by simp; omega
    suffices H : ∀ m (hm : m = (l.length + n) + 1), Decodes (decItems dec m i) ((a :: l).flatMap w)
        ⟨(a :: l).map c ++ List.replicate n x, by simp [hm]⟩ from H _ e
    intro m hm
    subst hm
    rw [List.flatMap_cons]
    exact h1.bind (h2.map rfl)

theorem decSizedSlice_decodes {dec : Dec α} {w : α → List Byte} {c : α → α} (n : Nat) (l : List α)
    (hn : l.length ≤ n) (hx : l.length = n ∨ ∃ x, Decodes dec [] x) (hl : l.length ≤ 65535)
    (h : ∀ x ∈ l, Decodes dec (w x) (c x)) :
    Decodes (decSizedSlice dec n) (leBytes 2 l.length ++ l.flatMap w)
      ⟨l.map c, by simp [hn]⟩ := by
  refine (decUsize_decodes l.length hl).bind ?_
  rw [if_neg (by omega)]
  rcases hx with hx | ⟨x, hx⟩
  · refine (decItems_decodes n l hx h 0).map ?_
    congr 1
    apply Subtype.ext
    simp [List.take_of_length_le]
  · obtain ⟨k, rfl⟩ := Nat.exists_eq_add_of_le hn
    refine (decItems_append k l h hx 0).map ?_
    congr 1
    apply Subtype.ext
    simp

theorem decIpv4_decodes (a : Items Byte 4) : Decodes decIpv4 a.val.reverse a := by
  have h := Decodes.readInto a.val.reverse
  rw [List.length_reverse, a.property] at h
  refine Decodes.map (a := fromLe a.val.reverse) (h.map rfl) ?_
  congr 1
  apply Subtype.ext
  have := toBe_fromLe a.val.reverse
  rw [List.length_reverse, a.property, List.reverse_reverse] at this
  exact this

theorem decIpv6_decodes (a : Items Byte 16) : Decodes decIpv6 a.val.reverse a := by
  have h := Decodes.readInto a.val.reverse
  rw [List.length_reverse, a.property] at h
  refine Decodes.map (a := fromLe a.val.reverse) (h.map rfl) ?_
  congr 1
  apply Subtype.ext
  have := toBe_fromLe a.val.reverse
  rw [List.length_reverse, a.property, List.reverse_reverse] at this
  exact this

theorem bv_num (n m x : Nat) (v : BitVec n) (h : n = 8 * m) : v.toNat < 256 ^ m := by
  have := v.isLt
  subst h
  rwa [two_pow_eq] at this

theorem decSocketAddrV4_decodes (a : SocketAddrV4Val) :
    Decodes decSocketAddrV4 (a.ip.val.reverse ++ leBytes 2 a.port.toNat) a := by
  refine (decIpv4_decodes a.ip).bind ?_
  refine (decNum_decodes 2 _ (bv_num 16 2 0 a.port rfl)).map ?_
  simp

theorem decSocketAddrV6_decodes (a : SocketAddrV6Val) :
    Decodes decSocketAddrV6 (a.ip.val.reverse ++ leBytes 2 a.port.toNat
      ++ leBytes 4 a.flowinfo.toNat ++ leBytes 4 a.scopeId.toNat) a := by
  rw [List.append_assoc, List.append_assoc]
  refine (decIpv6_decodes a.ip).bind ?_
  refine (decNum_decodes 2 _ (bv_num 16 2 0 a.port rfl)).bind ?_
  refine (decNum_decodes 4 _ (bv_num 32 4 0 a.flowinfo rfl)).bind ?_
  refine (decNum_decodes 4 _ (bv_num 32 4 0 a.scopeId rfl)).map ?_
  simp

theorem decDuration_decodes (d : DurationVal) :
    Decodes decDuration (leBytes 8 d.secs.toNat ++ leBytes 4 d.nanos) d := by
  have hs := d.secs.isLt
  have hn := d.nanos_lt
  have hN : nanosPerSec = 1000000000 := rfl
  refine (decNum_decodes 8 _ (bv_num 64 8 0 d.secs rfl)).bind ?_
  refine (decNum_decodes 4 d.nanos (by omega)).map ?_
  have : durationNew d.secs.toNat d.nanos = some d := by
    unfold durationNew
    have h1 : d.nanos / nanosPerSec = 0 := Nat.div_eq_of_lt hn
    have h2 : d.nanos % nanosPerSec = d.nanos := Nat.mod_eq_of_lt hn
    simp only [h1, h2, Nat.add_zero, hs, if_true]
    cases d
    simp
  rw [this]

theorem decSystemTime_decodes (p : TimePlatform) (v : {ns : Int // p.lo ≤ ns ∧ ns ≤ p.hi}) :
    Decodes (decSystemTime p) (leBytesInt 8 (v.val.tdiv nanosPerSec))
      ⟨v.val.tdiv nanosPerSec * nanosPerSec, truncSeconds_mem p v.val v.property⟩ := by
  have hm := truncSeconds_mem p v.val v.property
  have hlb := p.lo_bound
  have hhb := p.hi_bound
  have hN : ((nanosPerSec : Nat) : Int) = 1000000000 := rfl
  suffices H : ∀ (x : Int) (hm : p.lo ≤ x * nanosPerSec ∧ x * nanosPerSec ≤ p.hi),
      Decodes (decSystemTime p) (leBytesInt 8 x) ⟨x * nanosPerSec, hm⟩ from H _ hm
  clear hm
  intro x hm
  have hr : -(2 : Int) ^ 63 ≤ x ∧ x < (2 : Int) ^ 63 := by
    rw [hN] at hlb hhb hm
    omega
  refine (decNum_decodes 8 _ (emod_toNat_lt x 8)).map ?_
  simp only [ofBits_twos true 8 (by omega) x (by simpa using hr)]
  by_cases h0 : x > 0
  · rw [dif_pos h0, dif_pos hm.2]
  · have e : 0 - (x.natAbs : Int) * nanosPerSec = x * nanosPerSec := by
      rw [hN]; omega
    rw [dif_neg h0, dif_pos (by rw [e]; exact hm.1)]
    congr 1
    exact Subtype.ext e

theorem decString_decodes (v : {bs : List Byte // Utf8.valid bs = true})
    (hl : v.val.length ≤ 65535) : Decodes decString (leBytes 2 v.val.length ++ v.val) v := by
  refine (decUsize_decodes v.val.length hl).bind ?_
  refine (Decodes.read v.val).map ?_
  have hv := v.property
  unfold Utf8.valid at hv
  split
  · rfl
  · rename_i i h; rw [h] at hv; simp at hv

theorem decCString_decodes (v : {bs : List Byte // 0 ∉ bs})
    (hl : v.val.length ≤ 65535) : Decodes decCString (leBytes 2 v.val.length ++ v.val) v := by
  refine (decUsize_decodes v.val.length hl).bind ?_
  refine (Decodes.read v.val).map ?_
  rw [dif_pos v.property]

theorem sizedStrFromUtf8_ok (n : Nat)
    (v : {bs : List Byte // Utf8.valid bs = true ∧ bs.length ≤ n}) :
    sizedStrFromUtf8 n v.val = some (.ok v) := by
  have hv := v.property.1
  unfold Utf8.valid at hv
  unfold sizedStrFromUtf8
  rw [dif_neg (by have := v.property.2; omega)]
  split
  · rfl
  · rename_i i h; rw [h] at hv; simp at hv

theorem decSizedStr_decodes (n : Nat)
    (v : {bs : List Byte // Utf8.valid bs = true ∧ bs.length ≤ n})
    (hl : v.val.length ≤ 65535) : Decodes (decSizedStr n) (leBytes 2 v.val.length ++ v.val) v := by
  refine (decUsize_decodes v.val.length hl).bind ?_
  refine (Decodes.read v.val).map ?_
  rw [sizedStrFromUtf8_ok]

mutual

/-- A type that need not have octets has a value that is decoded without any. -/
theorem Ty.decode_blank : (t : Ty) → ¬ Eats t → ∃ v, Decodes t.decode [] v
  | .unit _, _ => ⟨_, Decodes.pure _⟩
  | .wrap _ t, h => Ty.decode_blank t h
  | .array t 0, _ => ⟨⟨[], rfl⟩, Decodes.pure _⟩
  | .array t (n + 1), h => by
    obtain ⟨v, hv⟩ := Ty.decode_blank t fun h' => h ⟨Nat.succ_ne_zero n, h'⟩
    exact ⟨_, decItems_blank hv (n + 1) 0⟩
  | .range t, h => by
    obtain ⟨v, hv⟩ := Ty.decode_blank t h
    exact ⟨⟨v, v⟩, hv.bind (hv.map rfl)⟩
  | .rangeInclusive t, h => by
    obtain ⟨v, hv⟩ := Ty.decode_blank t h
    exact ⟨⟨v, v, false⟩, hv.bind (hv.map rfl)⟩
  | .lock _ t, h => by
    obtain ⟨v, hv⟩ := Ty.decode_blank t h
    exact ⟨⟨false, v⟩, hv.map rfl⟩
  | .refCell t, h => by
    obtain ⟨v, hv⟩ := Ty.decode_blank t h
    exact ⟨⟨false, v⟩, hv.map rfl⟩
  | .tuple fs, h => Fields.decode_blank fs _ h
  | .struct fs, h => Fields.decode_blank fs _ h
  | .num _, h => absurd trivial h
  | .bool, h => absurd trivial h
  | .char, h => absurd trivial h
  | .usize, h => absurd trivial h
  | .isize, h => absurd trivial h
  | .nonZero _, h => absurd trivial h
  | .infallible, h => absurd trivial h
  | .seq _ _, h => absurd trivial h
  | .hashMap _ _, h => absurd trivial h
  | .hashSet _, h => absurd trivial h
  | .option _, h => absurd trivial h
  | .result _ _, h => absurd trivial h
  | .bound _, h => absurd trivial h
  | .duration, h => absurd trivial h
  | .systemTime _, h => absurd trivial h
  | .ipv4, h => absurd trivial h
  | .ipv6, h => absurd trivial h
  | .ipAddr, h => absurd trivial h
  | .socketAddrV4, h => absurd trivial h
  | .socketAddrV6, h => absurd trivial h
  | .socketAddr, h => absurd trivial h
  | .str _, h => absurd trivial h
  | .cStr _, h => absurd trivial h
  | .sizedStr _, h => absurd trivial h
  | .sizedSlice _ _, h => absurd trivial h
  | .enum _ _, h => absurd trivial h

theorem Fields.decode_blank : (fs : Fields) → (g : DecErr → DecErr) → ¬ EatsFields fs →
    ∃ v, Decodes (fs.decode g) [] v
  | .nil, _, _ => ⟨_, Decodes.pure _⟩
  | .cons t fs, g, h => by
    obtain ⟨v, hv⟩ := Ty.decode_blank t fun h' => h (.inl h')
    obtain ⟨w, hw⟩ := Fields.decode_blank fs g fun h' => h (.inr h')
    exact ⟨(v, w), (hv.mapErr g).bind (hw.map rfl)⟩

end

mutual

theorem Ty.decode_decodes : (t : Ty) → t.WF → (v : t.Val) → Supported t v → Encodable t v →
    Decodes t.decode (wire t v) (carried t v)
  | .num k, _, v, _, _ => by
    refine (decNum_decodes k.bytes _ (bv_num _ _ 0 (show BitVec (8 * k.bytes) from v) rfl)).map ?_
    refine congrArg Pure.pure (?_ : BitVec.ofNat (8 * k.bytes) (BitVec.toNat (show BitVec (8 * k.bytes) from v)) = (show BitVec (8 * k.bytes) from v))
    exact BitVec.eq_of_toNat_eq
      ((BitVec.toNat_ofNat _ _).trans
        (Nat.mod_eq_of_lt (BitVec.isLt (show BitVec (8 * k.bytes) from v))))
  | .bool, _, v, _, _ => decBool_decodes v
  | .char, _, v, _, _ => decChar_decodes v
  | .usize, _, v, _, h => decUsize_decodes v h
  | .isize, _, v, _, h => decIsize_decodes v h
  | .nonZero r, _, v, _, h => by
    refine (decRepr_decodes r v.val v.property.1 h).map ?_
    rw [if_neg v.property.2, dif_pos v.property]
    rfl
  | .unit _, _, _, _, _ => Decodes.pure _
  | .infallible, _, v, _, _ => nomatch v
  | .wrap _ t, hw, v, hs, he => Ty.decode_decodes t hw v hs he
  | .array t n, hw, v, hs, he =>
    decItems_decodes n v.val v.property
      (fun x hx => Ty.decode_decodes t hw x (hs x hx) (he x hx)) 0
  | .seq _ t, hw, v, hs, he =>
    decSeq_decodes v he.1 (fun x hx => Ty.decode_decodes t hw x (hs x hx) (he.2 x hx))
  | .hashMap _ _, _, _, hs, _ => nomatch hs
  | .hashSet _, _, _, hs, _ => nomatch hs
  | .option t, hw, none, hs, he => (decBool_decodes false).map rfl
  | .option t, hw, some v, hs, he =>
    (decBool_decodes true).bind ((Ty.decode_decodes t hw v hs he).map rfl)
  | .result t e, hw, .ok v, hs, he =>
    (decBool_decodes false).bind (((Ty.decode_decodes t hw.1 v hs he).mapErr _).map rfl)
  | .result t e, hw, .err v, hs, he =>
    (decBool_decodes true).bind (((Ty.decode_decodes e hw.2 v hs he).mapErr _).map rfl)
  | .bound t, hw, .included v, hs, he =>
    (decU8_decodes 0 (by omega)).bind (((Ty.decode_decodes t hw v hs he).mapErr _).map rfl)
  | .bound t, hw, .excluded v, hs, he =>
    (decU8_decodes 1 (by omega)).bind (((Ty.decode_decodes t hw v hs he).mapErr _).map rfl)
  | .bound t, hw, .unbounded, hs, he => (decU8_decodes 2 (by omega)).map rfl
  | .range t, hw, v, hs, he =>
    (Ty.decode_decodes t hw v.start hs.1 he.1).bind
      ((Ty.decode_decodes t hw v.stop hs.2 he.2).map rfl)
  | .rangeInclusive t, hw, v, hs, he =>
    (Ty.decode_decodes t hw v.start hs.1 he.1).bind
      ((Ty.decode_decodes t hw v.stop hs.2 he.2).map rfl)
  | .lock _ t, hw, v, hs, he => (Ty.decode_decodes t hw v.val hs he).map rfl
  | .refCell t, hw, v, hs, he => (Ty.decode_decodes t hw v.val hs he.2).map rfl
  | .duration, _, v, _, _ => decDuration_decodes v
  | .systemTime p, _, v, _, _ => decSystemTime_decodes p v
  | .ipv4, _, v, _, _ => decIpv4_decodes v
  | .ipv6, _, v, _, _ => decIpv6_decodes v
  | .ipAddr, _, .v4 a, _, _ => (decU8_decodes 4 (by omega)).bind ((decIpv4_decodes a).map rfl)
  | .ipAddr, _, .v6 a, _, _ => (decU8_decodes 6 (by omega)).bind ((decIpv6_decodes a).map rfl)
  | .socketAddrV4, _, v, _, _ => decSocketAddrV4_decodes v
  | .socketAddrV6, _, v, _, _ => decSocketAddrV6_decodes v
  | .socketAddr, _, .v4 a, _, _ =>
    (decU8_decodes 4 (by omega)).bind ((decSocketAddrV4_decodes a).map rfl)
  | .socketAddr, _, .v6 a, _, _ =>
    (decU8_decodes 6 (by omega)).bind ((decSocketAddrV6_decodes a).map rfl)
  | .str _, _, v, _, he => decString_decodes v he
  | .cStr _, _, v, _, he => decCString_decodes v he
  | .sizedStr n, _, v, _, he => decSizedStr_decodes n v he
  | .sizedSlice t n, hw, v, hs, he =>
    decSizedSlice_decodes n v.val v.property (hs.1.imp_right (Ty.decode_blank t)) he.1
      (fun x hx => Ty.decode_decodes t hw x (hs.2 x hx) (he.2 x hx))
  | .tuple fs, hw, v, hs, he => Fields.decode_decodes fs _ hw v hs he
  | .struct fs, hw, v, hs, he => Fields.decode_decodes fs _ hw v hs he
  | .enum r vs, hw, v, hs, he => by
    obtain ⟨d, fw, h1, h2, h3, h4⟩ := Variants.decode_decodes vs r none (explicitDiscs vs) 0
      (by simp) (by simp) hw.1 hw.2.2 v hs he
    show Decodes _ (wireVariants r (explicitDiscs vs) vs 0 v) _
    rw [h1]
    exact (decRepr_decodes r d (hw.2.1 d h2).1 h3).bind h4

theorem Fields.decode_decodes : (fs : Fields) → (g : DecErr → DecErr) → fs.WF → (v : fs.Val) →
    SupportedFields fs v → EncodableFields fs v →
    Decodes (fs.decode g) (wireFields fs v) (carriedFields fs v)
  | .nil, _, _, _, _, _ => Decodes.pure _
  | .cons t fs, g, hw, v, hs, he =>
    ((Ty.decode_decodes t hw.1 v.1 hs.1 he.1).mapErr g).bind
      ((Fields.decode_decodes fs g hw.2 v.2 hs.2 he.2).map rfl)

theorem Variants.decode_decodes : (vs : Variants) → (r : Repr) → (prev : Option Nat) →
    (explicit : List (Option Nat)) → (j : Nat) → (explicit.drop j = explicitDiscs vs) →
    (prev = if j = 0 then none else some (discOf explicit (j - 1))) →
    (vs.discs prev).Nodup → vs.WF → (v : vs.Val) → SupportedVariants vs v →
    EncodableVariants r explicit vs j v →
    ∃ (d : Nat) (fw : List Byte), wireVariants r explicit vs j v = reprWire r d ++ fw ∧
      d ∈ vs.discs prev ∧ ReprEncodable r d ∧
      Decodes (vs.decode prev d) fw (carriedVariants vs v)
  | .nil, _, _, _, _, _, _, _, _, v, _, _ => nomatch v
  | .cons d fs vs, r, prev, explicit, j, h, hp, hn, hw, .inl v, hs, he => by
    have hd : discOf explicit j = nextDisc prev d := by
      rw [hp]
      apply discOf_step
      have := congrArg (·[0]?) h
      simpa [explicitDiscs] using this
    refine ⟨nextDisc prev d, wireFields fs v, ?_, by simp [Variants.discs], ?_, ?_⟩
    · show reprWire r (discOf explicit j) ++ wireFields fs v = _
      rw [hd]
    · rw [← hd]; exact he.1
    · show Decodes (if _ then _ else _) _ _
      rw [if_pos rfl]
      exact (Fields.decode_decodes fs _ hw.1 v hs he.2).map rfl
  | .cons d fs vs, r, prev, explicit, j, h, hp, hn, hw, .inr v, hs, he => by
    have hd : discOf explicit j = nextDisc prev d := by
      rw [hp]
      apply discOf_step
      have := congrArg (·[0]?) h
      simpa [explicitDiscs] using this
    have hdrop : explicit.drop (j + 1) = explicitDiscs vs := by
      have := congrArg List.tail h
      simpa [explicitDiscs] using this
    simp only [Variants.discs, List.nodup_cons] at hn
    obtain ⟨x, fw, h1, h2, h3, h4⟩ := Variants.decode_decodes vs r (some (nextDisc prev d))
      explicit (j + 1) hdrop (by simp [hd]) hn.2 hw.2 v hs he
    refine ⟨x, fw, h1, by simp [Variants.discs, h2], h3, ?_⟩
    show Decodes (if _ then _ else _) _ _
    rw [if_neg (by intro e; have : x = nextDisc prev d := by omega
                   exact hn.1 (this ▸ h2))]
    exact h4.map rfl

end

end Oct
