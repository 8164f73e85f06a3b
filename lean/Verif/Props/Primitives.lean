import Verif.Proofs.Values
import Verif.Props.Samples
import Verif.Spec.Calendar
/-
C33-C35, C41-C44: single values.
-/
namespace Oct.Props
open Oct Spec
set_option linter.unusedVariables false

/-- C08, decoding. Any two octets are decoded as the unsigned or signed number of 16 bits that they
are, low octet first, whatever the machine; so what was encoded comes back as the same number. -/
theorem C08_decode (a b : Byte) :
    Yields Ty.usize.decode [a, b] (.ok (a.toNat + 256 * b.toNat)) ∧
    Yields Ty.isize.decode [a, b] (.ok (if b.toNat < 128 then (a.toNat + 256 * b.toNat : Int)
      else (a.toNat + 256 * b.toNat : Int) - 65536)) ∧
    (∀ n : Nat, n ≤ 65535 → Yields Ty.usize.decode (leBytes 2 n) (.ok n)) ∧
    ∀ x : Int, -32768 ≤ x ∧ x ≤ 32767 → Yields Ty.isize.decode (leBytesInt 2 x) (.ok x) := by
  have hn : fromLe [a, b] = a.toNat + 256 * b.toNat := by simp [fromLe]
  have h2 : Yields (decNum 2) [a, b] (.ok (a.toNat + 256 * b.toNat)) := hn ▸ decNum_yields [a, b]
  refine ⟨h2, h2.map ?_, decUsize_yields, decIsize_decodes⟩
  have ha := a.toNat_lt
  have hb := b.toNat_lt
  have : ofBits true 2 (a.toNat + 256 * b.toNat) = if b.toNat < 128
      then (a.toNat + 256 * b.toNat : Int) else (a.toNat + 256 * b.toNat : Int) - 65536 := by
    unfold ofBits
    simp only [true_and]
    split <;> split <;> first | omega | (simp at *; omega)
  rw [this]
  exact Yields.pure _

/-- C33. Booleans are encoded as one octet, 1 or 0. -/
theorem C33_bool_encode : EncodesTo .bool true [1] ∧ EncodesTo .bool false [0] :=
  ⟨encodesTo' trivial rfl, encodesTo' trivial rfl⟩

/-- C33. Any octet decodes as a boolean: zero as false, all others as true. -/
theorem C33_bool_decode (b : Byte) : Yields Ty.bool.decode [b] (.ok (show Bool from b != 0)) := by
  refine (decU8_yields b).map ?_
  have : (b.toNat != 0) = (b != 0) := by
    by_cases h : b = 0
    · subst h; rfl
    · have : b.toNat ≠ 0 := fun h' => h (UInt8.toNat_inj.mp h')
      rw [bne_iff_ne.mpr this, bne_iff_ne.mpr h]
  rw [this]
  exact Yields.pure _

/-- C33. `None` is the octet 0; `Some(v)` is the octet 1, then `v`. -/
theorem C33_option_encode (t : Ty) (v : t.Val) (w : List Byte) (h : EncodesTo t v w) :
    EncodesTo (.option t) (some v) (1 :: w) ∧
    EncodesTo (.option t) (show Option t.Val from none) [0] := by
  obtain ⟨he, rfl⟩ := encodesTo_iff.mp h
  exact ⟨encodesTo' (t := .option t) (v := some v) he rfl,
    encodesTo' (t := .option t) (v := (none : Option t.Val)) trivial rfl⟩

/-- C33. An `Option` with a leading zero is `None`; with any other leading octet it is what follows,
whatever the outcome of decoding that. -/
theorem C33_option_decode (t : Ty) (b : Byte) (w : List Byte) (r : Res DecErr t.Val)
    (h : Yields t.decode w r) :
    Yields (Ty.option t).decode [0] (.ok (show Option t.Val from none)) ∧
    (b ≠ 0 → Yields (Ty.option t).decode (b :: w) (r.map some)) := by
  refine ⟨(C33_bool_decode 0).map (Yields.pure _), fun hb => ?_⟩
  refine (C33_bool_decode b).bind (w' := w) ?_
  have : (b != 0) = true := by simp [hb]
  rw [this]
  exact h.bind_map

/-- C33. `Ok(v)` is the octet 0, then `v`; `Err(e)` is the octet 1, then `e`. -/
theorem C33_result_encode (t e : Ty) :
    (∀ v w, EncodesTo t v w → EncodesTo (.result t e) (.ok v) (0 :: w)) ∧
    (∀ v w, EncodesTo e v w → EncodesTo (.result t e) (.err v) (1 :: w)) := by
  constructor
  · intro v w h
    obtain ⟨he, rfl⟩ := encodesTo_iff.mp h
    exact encodesTo' (t := .result t e) (v := .ok v) he rfl
  · intro v w h
    obtain ⟨he, rfl⟩ := encodesTo_iff.mp h
    exact encodesTo' (t := .result t e) (v := .err v) he rfl

/-- C33. A `Result` with a leading zero is `Ok` of what follows, with any other leading octet `Err` of
what follows; decode errors of either are reported as `BadField`. -/
theorem C33_result_decode (t e : Ty) (b : Byte) (w : List Byte) :
    (∀ r, Yields t.decode w r →
      Yields (Ty.result t e).decode (0 :: w) ((r.map .ok).mapErr .badField)) ∧
    (∀ r, Yields e.decode w r → b ≠ 0 →
      Yields (Ty.result t e).decode (b :: w) ((r.map .err).mapErr .badField)) := by
  constructor
  · intro r h
    refine (C33_bool_decode 0).bind (w' := w) ?_
    have := (h.mapErr .badField).bind_map (f := (ResultVal.ok : t.Val → ResultVal t.Val e.Val))
    cases r <;> exact this
  · intro r h hb
    refine (C33_bool_decode b).bind (w' := w) ?_
    have hb' : (b != 0) = true := by simp [hb]
    rw [hb']
    have := (h.mapErr .badField).bind_map (f := (ResultVal.err : e.Val → ResultVal t.Val e.Val))
    cases r <;> exact this

/-- C33. `Included(v)` is the octet 0, then `v`; `Excluded(v)` is the octet 1, then `v`; `Unbounded`
is the octet 2. -/
theorem C33_bound_encode (t : Ty) (v : t.Val) (w : List Byte) (h : EncodesTo t v w) :
    EncodesTo (.bound t) (.included v) (0 :: w) ∧ EncodesTo (.bound t) (.excluded v) (1 :: w) ∧
    EncodesTo (.bound t) .unbounded [2] := by
  obtain ⟨he, rfl⟩ := encodesTo_iff.mp h
  exact ⟨encodesTo' (t := .bound t) (v := .included v) he rfl,
    encodesTo' (t := .bound t) (v := .excluded v) he rfl,
    encodesTo' (t := .bound t) (v := .unbounded) trivial rfl⟩

/-- C33. Decoding a `Bound`, for each leading octet; above two it is reported as unassigned. -/
theorem C33_bound_decode (t : Ty) (w : List Byte) (r : Res DecErr t.Val) (h : Yields t.decode w r) :
    Yields (Ty.bound t).decode (0 :: w) ((r.map .included).mapErr .badField) ∧
    Yields (Ty.bound t).decode (1 :: w) ((r.map .excluded).mapErr .badField) ∧
    Yields (Ty.bound t).decode [2] (.ok .unbounded) ∧
    ∀ b : Byte, 2 < b.toNat → Yields (Ty.bound t).decode [b] (.err (.unassigned b.toNat)) := by
  refine ⟨?_, ?_, ?_, ?_⟩
  · refine (decU8_yields 0).bind (w' := w) ?_
    have := (h.mapErr .badField).bind_map (f := (BoundVal.included : t.Val → BoundVal t.Val))
    cases r <;> exact this
  · refine (decU8_yields 1).bind (w' := w) ?_
    have := (h.mapErr .badField).bind_map (f := (BoundVal.excluded : t.Val → BoundVal t.Val))
    cases r <;> exact this
  · exact (decU8_yields 2).map (Yields.pure _)
  · intro b hb
    refine (decU8_yields b).map ?_
    rw [if_neg (by omega), if_neg (by omega), if_neg (by omega)]
    exact Yields.fail _

example : Yields (Ty.bound .bool).decode [1, 7] (.ok (.excluded (show Bool from true))) :=
  (C33_bound_decode .bool [7] _ (C33_bool_decode 7)).2.1
example : Yields (Ty.bound .bool).decode [3] (.err (.unassigned 3)) :=
  (C33_bound_decode .bool [7] _ (C33_bool_decode 7)).2.2.2 3 (by decide)

/-- C34: four octets are always the little-endian form of some number below `2^32`, so the theorems
below cover all inputs. -/
theorem C34_four_octets (w : List Byte) (h : w.length = 4) : ∃ n < 2 ^ 32, leBytes 4 n = w := by
  obtain ⟨x, hx, he⟩ := leBytes_surj w
  rw [h] at hx he
  exact ⟨x, hx, he⟩

/-- C34. Four octets decode as the `char` whose code point they are; a number that is not the code
point of a `char` is reported. Missing: the surrogates from DE00 to DFFF, see
`C34_false_surrogate`. -/
theorem C34_char_partial :
    (∀ c : Char, Yields Ty.char.decode (leBytes 4 c.toNat) (.ok c)) ∧
    (∀ n < 2 ^ 32, ¬ n.isValidChar → ¬ (0xDE00 ≤ n ∧ n ≤ 0xDFFF) →
      Yields Ty.char.decode (leBytes 4 n) (.err (.char n))) := by
  refine ⟨decChar_decodes, ?_⟩
  intro n hn hv hs
  have h4 : Yields (decNum 4) (leBytes 4 n) (.ok n) := decNum_decodes 4 n hn
  refine h4.map ?_
  rw [if_neg]
  · exact Yields.fail _
  · intro h
    apply hv
    simp only [Nat.isValidChar]
    omega

/-- C34: a `char` is decoded exactly from the code points of chars. -/
theorem C34_accepts_iff (n : Nat) (hn : n < 2 ^ 32) :
    (∃ c : Char, Yields Ty.char.decode (leBytes 4 n) (.ok c)) ↔ n.isValidChar := by
  constructor
  · rintro ⟨c, h⟩
    have h4 : Yields (decNum 4) (leBytes 4 n) (.ok n) := decNum_decodes 4 n hn
    apply Classical.byContradiction
    intro hv
    by_cases hs : 0xDE00 ≤ n ∧ n ≤ 0xDFFF
    · have : Yields Ty.char.decode (leBytes 4 n) (.ub .invalidChar) := by
        refine h4.map ?_
        rw [if_pos (by omega), dif_neg hv]
        exact Yields.ub _
      cases h.unique this
    · cases h.unique (C34_char_partial.2 n hn hv hs)
  · intro hv
    refine ⟨Char.ofNatAux n hv, ?_⟩
    have := C34_char_partial.1 (Char.ofNatAux n hv)
    have hn : (Char.ofNatAux n hv).toNat = n := rfl
    rwa [hn] at this

/-- C34 is false: every surrogate from DE00 to DFFF, instead of being reported, is made a `char`,
which is undefined behaviour. -/
theorem C34_false_surrogate (n : Nat) (h : 0xDE00 ≤ n ∧ n ≤ 0xDFFF) :
    Yields Ty.char.decode (leBytes 4 n) (.ub .invalidChar) := by
  have h4 : Yields (decNum 4) (leBytes 4 n) (.ok n) := decNum_decodes 4 n (by omega)
  refine h4.map ?_
  rw [if_pos (by omega), dif_neg (by simp only [Nat.isValidChar]; omega)]
  exact Yields.ub _

example : Yields Ty.char.decode [0x00, 0xD8, 0, 0] (.err (.char 0xD800)) :=
  C34_char_partial.2 0xD800 (by decide) (by decide) (by decide)
example : ∃ i, Ty.char.decode (Input.new [0x00, 0xDE, 0, 0]) = (.ub .invalidChar, i) := ⟨_, rfl⟩

/-- C35. As many octets as the integer type has decode as the non-zero integer they are the encoding
of, or if all are zero, are reported as null; they are consumed in either case. -/
theorem C35_non_zero (r : Repr) (w : List Byte) (h : w.length = r.bytes) :
    ((∀ b ∈ w, b = 0) → Yields (Ty.nonZero r).decode w (.err .nonZero)) ∧
    ((∃ b ∈ w, b ≠ 0) → ∃ v : (Ty.nonZero r).Val, EncodesTo (.nonZero r) v w ∧
      Yields (Ty.nonZero r).decode w (.ok v)) := by
  obtain ⟨x, h1, h2, h3, h4⟩ := decRepr_yields r w h
  have h0 : reprWire r 0 = List.replicate r.bytes 0 := by
    unfold reprWire leBytesInt leBytes
    rw [List.map_eq_replicate_iff.mpr, List.length_range]
    intro i _
    simp
  have hr0 : r.InRange 0 ∧ ReprEncodable r 0 := by
    cases r with
    | int k => exact ⟨by cases k <;> decide, trivial⟩
    | usize => exact ⟨by decide, by decide⟩
    | isize => exact ⟨by decide, by decide⟩
  have hx : x = 0 ↔ ∀ b ∈ w, b = 0 := by
    constructor
    · rintro rfl b hb
      rw [← h3, h0] at hb
      exact List.eq_of_mem_replicate hb
    · intro hb
      refine reprWire_inj h1 h2 hr0.1 hr0.2 ?_
      rw [h0, h3, ← h]
      exact List.eq_replicate_iff.mpr ⟨rfl, hb⟩
  constructor
  · intro hb
    refine h4.map ?_
    rw [if_pos (hx.mpr hb)]
    exact Yields.fail _
  · rintro ⟨b, hb, hne⟩
    have hx0 : x ≠ 0 := fun h => hne (hx.mp h b hb)
    refine ⟨⟨x, h1, hx0⟩, encodesTo' (t := .nonZero r) (v := ⟨x, h1, hx0⟩) h2 h3, ?_⟩
    refine h4.map ?_
    rw [if_neg hx0, dif_pos ⟨h1, hx0⟩]
    exact Yields.pure _

/-- C35: no input decodes as a zero. -/
theorem C35_never_zero (r : Repr) (i i' : Input) (v : (Ty.nonZero r).Val)
    (h : (Ty.nonZero r).decode i = (.ok v, i')) : v.val ≠ 0 := v.property.2

example : Yields (Ty.nonZero (.int .i16)).decode [0, 0] (.err .nonZero) :=
  (C35_non_zero _ _ rfl).1 (by decide)
example : ∃ b ∈ ([0, 0xFF] : List Byte), b ≠ 0 := by decide
example : ∃ i', (Ty.nonZero (.int .i16)).decode (Input.new [0, 0xFF])
    = (.ok ⟨-256, by decide⟩, i') := ⟨_, rfl⟩

/-- C41. A time is encoded as its whole number of seconds since the epoch, rounded towards the epoch.
Missing: rounding to the nearest second, see `C41_false_nearest`; and the time of exactly `-2^63`
seconds, which panics with overflow checks, see `C05`. -/
theorem C41_encode_partial (p : TimePlatform) (v : (Ty.systemTime p).Val)
    (h : v.val ≠ -(2 : Int) ^ 63 * nanosPerSec) : ∃ secs : Int,
    EncodesTo (.systemTime p) v (leBytesInt 8 secs) ∧ -(2 : Int) ^ 63 ≤ secs ∧ secs < (2 : Int) ^ 63 ∧
    (0 ≤ v.val → 0 ≤ secs ∧ secs * 1000000000 ≤ v.val ∧ v.val < (secs + 1) * 1000000000) ∧
    (v.val ≤ 0 → secs ≤ 0 ∧ v.val ≤ secs * 1000000000 ∧ (secs - 1) * 1000000000 < v.val) := by
  refine ⟨v.val.tdiv nanosPerSec, encodesTo' (t := .systemTime p) (v := v) (fun h' => h h'.2) rfl, ?_⟩
  have hN : ((nanosPerSec : Nat) : Int) = 1000000000 := rfl
  obtain ⟨ns, hlo, hhi⟩ := v
  have hlb := p.lo_bound
  have hhb := p.hi_bound
  simp only at h ⊢
  rw [hN] at hlb hhb ⊢
  by_cases h0 : 0 ≤ ns
  · rw [Int.tdiv_eq_ediv_of_nonneg h0]
    omega
  · have ht : ns.tdiv 1000000000 = - ((-ns) / 1000000000) := by
      have : ns = -(-ns) := by omega
      rw [this, Int.neg_tdiv, Int.tdiv_eq_ediv_of_nonneg (by omega)]
      simp
    rw [ht]
    omega

/-- C41. Any sixty-four-bit timestamp decodes as that whole second, if the platform can represent it,
and is reported otherwise. -/
theorem C41_decode (p : TimePlatform) (x : Int) (h : -(2 : Int) ^ 63 ≤ x ∧ x < (2 : Int) ^ 63) :
    (∀ hr : p.lo ≤ x * 1000000000 ∧ x * 1000000000 ≤ p.hi,
      Yields (Ty.systemTime p).decode (leBytesInt 8 x) (.ok ⟨x * 1000000000, hr⟩)) ∧
    (¬ (p.lo ≤ x * 1000000000 ∧ x * 1000000000 ≤ p.hi) →
      Yields (Ty.systemTime p).decode (leBytesInt 8 x) (.err (.systemTime x))) := by
  have hN : ((nanosPerSec : Nat) : Int) = 1000000000 := rfl
  have hd : Yields (decNum 8) (leBytesInt 8 x) (.ok (x % (2 : Int) ^ (8 * 8)).toNat) :=
    decNum_decodes 8 _ (emod_toNat_lt x 8)
  have hb : ofBits true 8 (x % (2 : Int) ^ (8 * 8)).toNat = x :=
    ofBits_twos true 8 (by omega) x (by simpa using h)
  have hlo := p.lo_le
  have hhi := p.le_hi
  constructor
  · intro hr
    refine hd.map ?_
    simp only [hb]
    by_cases h0 : x > 0
    · rw [dif_pos h0, dif_pos (show x * nanosPerSec ≤ p.hi from hr.2)]
      exact Yields.pure _
    · have e : 0 - (x.natAbs : Int) * nanosPerSec = x * 1000000000 := by rw [hN]; omega
      rw [dif_neg h0, dif_pos (by rw [e]; exact hr.1)]
      have : (⟨0 - (x.natAbs : Int) * nanosPerSec, by rw [e]; exact hr⟩ : {ns : Int // p.lo ≤ ns ∧ ns ≤ p.hi})
        = ⟨x * 1000000000, hr⟩ := Subtype.ext e
      rw [this]
      exact Yields.pure _
  · intro hr
    refine hd.map ?_
    simp only [hb]
    by_cases h0 : x > 0
    · rw [dif_pos h0, dif_neg (by rw [hN]; omega)]
      exact Yields.fail _
    · have e : 0 - (x.natAbs : Int) * nanosPerSec = x * 1000000000 := by rw [hN]; omega
      rw [dif_neg h0, dif_neg (by rw [e]; omega)]
      exact Yields.fail _

/-- C41 is false: the time 1.9 s after the epoch is encoded as second 1, though 2 is nearer, and
1.9 s before as -1. -/
theorem C41_false_nearest (p : TimePlatform) (h : p.lo ≤ -1900000000 ∧ 1900000000 ≤ p.hi) :
    EncodesTo (.systemTime p) ⟨1900000000, by omega⟩ (leBytesInt 8 1) ∧
    EncodesTo (.systemTime p) ⟨-1900000000, by omega⟩ (leBytesInt 8 (-1)) := by
  constructor
  · exact encodesTo' (t := .systemTime p) (v := ⟨1900000000, by omega⟩)
      (fun h => absurd (show (1900000000 : Int) = -(2 : Int) ^ 63 * nanosPerSec from h.2) (by decide)) rfl
  · exact encodesTo' (t := .systemTime p) (v := ⟨-1900000000, by omega⟩)
      (fun h => absurd (show (-1900000000 : Int) = -(2 : Int) ^ 63 * nanosPerSec from h.2) (by decide)) rfl

/-- C41. A date of whole seconds is encoded as its UNIX timestamp. -/
theorem C41_date (p : TimePlatform) (c : Civil) (hc : -(2 : Int) ^ 63 < c.unix)
    (h : p.lo ≤ c.unix * 1000000000 ∧ c.unix * 1000000000 ≤ p.hi) :
    EncodesTo (.systemTime p) ⟨c.unix * 1000000000, h⟩ (leBytesInt 8 c.unix) := by
  obtain ⟨secs, he, h1, h2, h3, h4⟩ := C41_encode_partial p ⟨c.unix * 1000000000, h⟩ (by
    have : ((nanosPerSec : Nat) : Int) = 1000000000 := rfl
    rw [this]
    show c.unix * 1000000000 ≠ _
    omega)
  simp only at h3 h4
  have : secs = c.unix := by omega
  exact this ▸ he

/-- 1970-01-01T00:00:00Z. -/
def epochDate : Civil := ⟨1970, 1, 1, 0, 0, 0, 0⟩
/-- 2024-11-03T12:02:01+01:00. -/
def date2024 : Civil := ⟨2024, 11, 3, 12, 2, 1, 1⟩
/-- 1989-06-03T20:00:00+09:00. -/
def date1989 : Civil := ⟨1989, 6, 3, 20, 0, 0, 9⟩
/-- 1945-05-04T18:30:00+02:00. -/
def date1945 : Civil := ⟨1945, 5, 4, 18, 30, 0, 2⟩

/-- C41. Of the examples in the documentation of times (encode/encode/mod.rs, lines 783-788), those of
1970, 2024 and 1945 are what the code gives. -/
theorem C41_documented :
    EncodesTo (.systemTime linuxTime) ⟨0, by decide⟩ (leBytesInt 8 0) ∧ epochDate.unix = 0 ∧
    date2024.unix = 1730631721 ∧ date1945.unix = -778231800 ∧
    (∀ h, EncodesTo (.systemTime linuxTime) ⟨date2024.unix * 1000000000, h⟩ (leBytesInt 8 1730631721)) ∧
    (∀ h, EncodesTo (.systemTime linuxTime) ⟨date1945.unix * 1000000000, h⟩ (leBytesInt 8 (-778231800))) := by
  have e0 : epochDate.unix = 0 := by decide +kernel
  have e1 : date2024.unix = 1730631721 := by decide +kernel
  have e2 : date1945.unix = -778231800 := by decide +kernel
  refine ⟨?_, e0, e1, e2, fun h => ?_, fun h => ?_⟩
  · exact encodesTo' (t := .systemTime linuxTime) (v := ⟨0, by decide⟩)
      (fun h => absurd (show (0 : Int) = -(2 : Int) ^ 63 * nanosPerSec from h.2) (by decide)) rfl
  · rw [show leBytesInt 8 1730631721 = leBytesInt 8 date2024.unix from congrArg _ e1.symm]
    exact C41_date linuxTime date2024 (by rw [e1]; decide) h
  · rw [show leBytesInt 8 (-778231800) = leBytesInt 8 date1945.unix from congrArg _ e2.symm]
    exact C41_date linuxTime date1945 (by rw [e2]; decide) h

/-- C41 is false of the example of 1989: the documentation gives 13258800 seconds, but the date is
612874800 seconds after the epoch, which is what the code writes. -/
theorem C41_false_documented : date1989.unix = 612874800 ∧
    (∀ h, EncodesTo (.systemTime linuxTime) ⟨date1989.unix * 1000000000, h⟩ (leBytesInt 8 612874800)) ∧
    leBytesInt 8 612874800 ≠ leBytesInt 8 13258800 := by
  have e : date1989.unix = 612874800 := by decide +kernel
  refine ⟨e, fun h => ?_, by decide⟩
  rw [show leBytesInt 8 612874800 = leBytesInt 8 date1989.unix from congrArg _ e.symm]
  exact C41_date linuxTime date1989 (by rw [e]; decide) h

example : linuxTime.lo ≤ date1989.unix * 1000000000 ∧ date1989.unix * 1000000000 ≤ linuxTime.hi := by
  rw [C41_false_documented.1]; decide
example : linuxTime.lo ≤ date1945.unix * 1000000000 ∧ date1945.unix * 1000000000 ≤ linuxTime.hi := by
  rw [C41_documented.2.2.2.1]; decide
example : linuxTime.lo ≤ date2024.unix * 1000000000 ∧ date2024.unix * 1000000000 ≤ linuxTime.hi := by
  rw [C41_documented.2.2.1]; decide

/-- A platform with times from 1970 to 2038 only. -/
def narrowTime : TimePlatform where
  lo := 0
  hi := 2147483647000000000
  overflowChecks := false
  lo_le := by decide
  le_hi := by decide
  lo_bound := by decide
  hi_bound := by decide

example : linuxTime.lo ≤ -1900000000 ∧ 1900000000 ≤ linuxTime.hi := by decide
example : Yields (Ty.systemTime narrowTime).decode (leBytesInt 8 (-1)) (.err (.systemTime (-1))) :=
  (C41_decode narrowTime (-1) (by decide)).2 (by decide)

/-- C42. A duration is encoded as eight octets of seconds and four of nanoseconds, and comes back
unchanged. -/
theorem C42_round_trip (d : DurationVal) :
    EncodesTo .duration d (leBytes 8 d.secs.toNat ++ leBytes 4 d.nanos) ∧
    Yields Ty.duration.decode (leBytes 8 d.secs.toNat ++ leBytes 4 d.nanos) (.ok d) :=
  ⟨encodesTo' (t := .duration) (v := d) trivial rfl, decDuration_decodes d⟩

/-- C42. Any twelve octets decode as the duration of that many seconds and nanoseconds in all, with
fewer than a billion nanoseconds of its own. Missing: when that many seconds are not representable
nothing is reported, see `C42_false_overflow`. -/
theorem C42_decode_partial (s n : Nat) (hs : s < 2 ^ 64) (hn : n < 2 ^ 32)
    (hr : s + n / 1000000000 < 2 ^ 64) : ∃ d : DurationVal,
    Yields Ty.duration.decode (leBytes 8 s ++ leBytes 4 n) (.ok d) ∧
    d.secs.toNat * 1000000000 + d.nanos = s * 1000000000 + n ∧ d.nanos < 1000000000 := by
  have h8 : Yields (decNum 8) (leBytes 8 s) (.ok s) := decNum_decodes 8 s hs
  have h4 : Yields (decNum 4) (leBytes 4 n) (.ok n) := decNum_decodes 4 n hn
  have hN : nanosPerSec = 1000000000 := rfl
  have hd : durationNew s n = some { secs := BitVec.ofNat 64 (s + n / nanosPerSec)
                                     nanos := n % nanosPerSec
                                     nanos_lt := Nat.mod_lt _ (by decide) } := by
    unfold durationNew
    rw [if_pos (by rw [hN]; exact hr)]
  refine ⟨_, h8.bind (h4.map (r := .ok { secs := BitVec.ofNat 64 (s + n / nanosPerSec)
                                         nanos := n % nanosPerSec
                                         nanos_lt := Nat.mod_lt _ (by decide) }) ?_), ?_,
    Nat.mod_lt _ (by decide)⟩
  · rw [hd]; exact Yields.pure _
  · simp only [BitVec.toNat_ofNat]
    rw [hN, Nat.mod_eq_of_lt hr]
    omega

/-- C42 is false: if carrying overflows the seconds, decoding panics instead of reporting an
error. -/
theorem C42_false_overflow (s n : Nat) (hs : s < 2 ^ 64) (hn : n < 2 ^ 32)
    (hr : 2 ^ 64 ≤ s + n / 1000000000) :
    Yields Ty.duration.decode (leBytes 8 s ++ leBytes 4 n) (.panic .durationOverflow) := by
  have h8 : Yields (decNum 8) (leBytes 8 s) (.ok s) := decNum_decodes 8 s hs
  have h4 : Yields (decNum 4) (leBytes 4 n) (.ok n) := decNum_decodes 4 n hn
  have hN : nanosPerSec = 1000000000 := rfl
  have hd : durationNew s n = none := by
    unfold durationNew
    rw [if_neg (by rw [hN]; omega)]
  refine h8.bind (h4.map ?_)
  rw [hd]
  exact Yields.panic _

example : (1 : Nat) + 2500000000 / 1000000000 < 2 ^ 64 := by decide
example : 2 ^ 64 ≤ (2 ^ 64 - 1) + 1000000000 / 1000000000 := by decide

/-- C43. IP addresses are encoded with their octets in reverse order and come back unchanged.
Missing: network order, see `C43_false_order`. -/
theorem C43_ip_partial (a : Items Byte 4) (b : Items Byte 16) :
    EncodesTo .ipv4 a a.val.reverse ∧ Yields Ty.ipv4.decode a.val.reverse (.ok a) ∧
    EncodesTo .ipv6 b b.val.reverse ∧ Yields Ty.ipv6.decode b.val.reverse (.ok b) :=
  ⟨encodesTo' (t := .ipv4) (v := a) trivial rfl, decIpv4_decodes a,
    encodesTo' (t := .ipv6) (v := b) trivial rfl, decIpv6_decodes b⟩

/-- C43 is false: an address is encoded in network order only if its octets read the same both
ways. -/
theorem C43_false_order (a : Items Byte 4) (b : Items Byte 16) :
    (EncodesTo .ipv4 a a.val ↔ a.val.reverse = a.val) ∧
    (EncodesTo .ipv6 b b.val ↔ b.val.reverse = b.val) := by
  exact ⟨(encodesTo_iff (t := .ipv4) (v := a)).trans ⟨fun h => h.2, fun h => ⟨trivial, h⟩⟩,
    (encodesTo_iff (t := .ipv6) (v := b)).trans ⟨fun h => h.2, fun h => ⟨trivial, h⟩⟩⟩

/-- C43 is false: 127.0.0.1 is encoded as 1, 0, 0, 127. -/
theorem C43_false_localhost : EncodesTo .ipv4 ⟨[127, 0, 0, 1], rfl⟩ [1, 0, 0, 127] ∧
    ¬ EncodesTo .ipv4 ⟨[127, 0, 0, 1], rfl⟩ [127, 0, 0, 1] :=
  ⟨encodesTo' (t := .ipv4) (v := ⟨[127, 0, 0, 1], rfl⟩) trivial rfl,
    fun h => absurd (encodesTo_iff.mp h).2 (by decide)⟩

/-- C43: the discriminated forms put 4 or 6 in front, and socket addresses put the port (and flow
information and scope) behind. -/
theorem C43_wrapped (a : SocketAddrV4Val) (b : SocketAddrV6Val) :
    EncodesTo .ipAddr (.v4 a.ip) (4 :: a.ip.val.reverse) ∧
    EncodesTo .ipAddr (.v6 b.ip) (6 :: b.ip.val.reverse) ∧
    EncodesTo .socketAddrV4 a (a.ip.val.reverse ++ leBytes 2 a.port.toNat) ∧
    EncodesTo .socketAddrV6 b (b.ip.val.reverse ++ leBytes 2 b.port.toNat ++
      leBytes 4 b.flowinfo.toNat ++ leBytes 4 b.scopeId.toNat) ∧
    EncodesTo .socketAddr (.v4 a) (4 :: (a.ip.val.reverse ++ leBytes 2 a.port.toNat)) ∧
    EncodesTo .socketAddr (.v6 b) (6 :: (b.ip.val.reverse ++ leBytes 2 b.port.toNat ++
      leBytes 4 b.flowinfo.toNat ++ leBytes 4 b.scopeId.toNat)) :=
  ⟨encodesTo' (t := .ipAddr) (v := .v4 a.ip) trivial rfl,
    encodesTo' (t := .ipAddr) (v := .v6 b.ip) trivial rfl,
    encodesTo' (t := .socketAddrV4) (v := a) trivial rfl,
    encodesTo' (t := .socketAddrV6) (v := b) trivial rfl,
    encodesTo' (t := .socketAddr) (v := .v4 a) trivial rfl,
    encodesTo' (t := .socketAddr) (v := .v6 b) trivial rfl⟩

/-- C43: all of these come back as they were. -/
theorem C43_wrapped_decode (a : SocketAddrV4Val) (b : SocketAddrV6Val) :
    Yields Ty.ipAddr.decode (4 :: a.ip.val.reverse) (.ok (.v4 a.ip)) ∧
    Yields Ty.ipAddr.decode (6 :: b.ip.val.reverse) (.ok (.v6 b.ip)) ∧
    Yields Ty.socketAddrV4.decode (a.ip.val.reverse ++ leBytes 2 a.port.toNat) (.ok a) ∧
    Yields Ty.socketAddrV6.decode (b.ip.val.reverse ++ leBytes 2 b.port.toNat ++
      leBytes 4 b.flowinfo.toNat ++ leBytes 4 b.scopeId.toNat) (.ok b) ∧
    Yields Ty.socketAddr.decode (4 :: (a.ip.val.reverse ++ leBytes 2 a.port.toNat))
      (.ok (.v4 a)) ∧
    Yields Ty.socketAddr.decode (6 :: (b.ip.val.reverse ++ leBytes 2 b.port.toNat ++
      leBytes 4 b.flowinfo.toNat ++ leBytes 4 b.scopeId.toNat)) (.ok (.v6 b)) := by
  exact ⟨Ty.decode_decodes .ipAddr trivial (.v4 a.ip) trivial trivial,
    Ty.decode_decodes .ipAddr trivial (.v6 b.ip) trivial trivial,
    decSocketAddrV4_decodes a, decSocketAddrV6_decodes b,
    Ty.decode_decodes .socketAddr trivial (.v4 a) trivial trivial,
    Ty.decode_decodes .socketAddr trivial (.v6 b) trivial trivial⟩

/-- C43: no other octet is taken in front. -/
theorem C43_unassigned (c : Byte) (h4 : c ≠ 4) (h6 : c ≠ 6) :
    Yields Ty.ipAddr.decode [c] (.err (.unassigned c.toNat)) ∧
    Yields Ty.socketAddr.decode [c] (.err (.unassigned c.toNat)) := by
  have h4' : c.toNat ≠ 4 := fun h => h4 (UInt8.toNat_inj.mp h)
  have h6' : c.toNat ≠ 6 := fun h => h6 (UInt8.toNat_inj.mp h)
  constructor
  · refine (decU8_yields c).map ?_
    rw [if_neg h4', if_neg h6']
    exact Yields.fail _
  · refine (decU8_yields c).map ?_
    rw [if_neg h4', if_neg h6']
    exact Yields.fail _

example : (5 : Byte) ≠ 4 ∧ (5 : Byte) ≠ 6 := by decide

/-- C44. A lock is encoded like its content (in the same streams, to the same effect), poisoned or
not, and decoding gives an unpoisoned lock with whatever decoding the content gives. -/
theorem C44_lock (k : LockKind) (t : Ty) (v : t.Val) (poisoned : Bool) :
    EncodesSame (.lock k t) ⟨poisoned, v⟩ t v ∧
    (∀ o, (Ty.lock k t).encode ⟨poisoned, v⟩ o = t.encode v o) ∧
    ∀ w r, Yields t.decode w r → Yields (Ty.lock k t).decode w (r.map fun v => ⟨false, v⟩) :=
  ⟨fun _ _ _ => Iff.rfl, fun _ => rfl, fun w r h => h.bind_map⟩

/-- C44. A `RefCell` that is not mutably borrowed is encoded like its content, with errors reported as
`BadValue`; else a bad borrow is reported and nothing is written. -/
theorem C44_ref_cell (t : Ty) (v : t.Val) (o : Output) :
    EncodesSame (.refCell t) ⟨false, v⟩ t v ∧
    (∀ o' e, t.encode v o = (.err e, o') →
      (Ty.refCell t).encode ⟨false, v⟩ o = (.err (.badValue e), o')) ∧
    (Ty.refCell t).encode ⟨true, v⟩ o = (.err .badBorrow, o) ∧
    ∀ w r, Yields t.decode w r → Yields (Ty.refCell t).decode w (r.map fun v => ⟨false, v⟩) := by
  refine ⟨encodesSame (t := .refCell t) (v := ⟨false, v⟩) rfl ⟨fun h => h.2, fun h => ⟨rfl, h⟩⟩,
    ?_, rfl, fun w r h => h.bind_map⟩
  intro o' e h
  show Enc.mapErr _ _ _ = _
  unfold Enc.mapErr
  rw [h]
  rfl

example : (Ty.refCell .bool).encode ⟨true, (true : Bool)⟩ (Output.new [0])
    = (.err .badBorrow, Output.new [0]) := rfl

end Oct.Props
