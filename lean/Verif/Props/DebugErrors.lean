import Verif.Proofs.DebugErrors
import Verif.Props.ErrorTypes
/-
C147: what the derived `Debug` of an error shows.
-/
namespace Oct.Props
open Oct Oct.Spec

/-- C147 (what is shown). The encode errors with `{:?}`. -/
theorem C147_encode_text (n : Nat) (i : Int) (e : EncErr) :
    (EncErr.usize n).shown.plain = "UsizeEncodeError(".toList ++ showNat n ++ [')'] ∧
    (EncErr.isize i).shown.plain = "IsizeEncodeError(".toList ++ showInt i ++ [')'] ∧
    (EncErr.badLength e).shown.plain = "BadLength(".toList ++ e.shown.plain ++ [')'] ∧
    (EncErr.badItem e).shown.plain = "BadItem(".toList ++ e.shown.plain ++ [')'] ∧
    (EncErr.item n e).shown.plain = "ItemEncodeError { index: ".toList ++ showNat n ++ ", error: ".toList ++
      e.shown.plain ++ [' ', '}'] ∧
    (EncErr.pair n e).shown.plain = ['('] ++ showNat n ++ [',', ' '] ++ e.shown.plain ++ [')'] ∧
    (EncErr.badDiscriminant e).shown.plain = "BadDiscriminant(".toList ++ e.shown.plain ++ [')'] ∧
    (EncErr.badField e).shown.plain = "BadField(".toList ++ e.shown.plain ++ [')'] ∧
    EncErr.badBorrow.shown.plain = "BadBorrow(BorrowError)".toList ∧
    (EncErr.badValue e).shown.plain = "BadValue(".toList ++ e.shown.plain ++ [')'] ∧
    (EncErr.gLargeIsize i).shown.plain = "LargeIsize(".toList ++ (EncErr.isize i).shown.plain ++ [')'] ∧
    (EncErr.gLargeUsize n).shown.plain = "LargeUsize(".toList ++ (EncErr.usize n).shown.plain ++ [')'] := by
  have w : ∀ {n p : String} (x : Shown), p.toList = n.toList ++ ['('] →
      (Shown.wrap n x).plain = p.toList ++ x.plain ++ [')'] := Dbg.wrap_text
  rw [← Dbg.nat_text n]
  refine ⟨w _ (by decide +kernel), w _ (by decide +kernel), w _ (by decide +kernel), w _ (by decide +kernel),
    Dbg.struct2_text _ _ (by decide +kernel) (by decide +kernel), ?_, w _ (by decide +kernel),
    w _ (by decide +kernel), by decide +kernel, w _ (by decide +kernel), w _ (by decide +kernel),
    w _ (by decide +kernel)⟩
  simp [EncErr.shown, Shown.plain, ShownArgs.plain]

/-- C147 (what is shown). The decode errors with `{:?}`. -/
theorem C147_decode_text (n k : Nat) (v : Byte) (i : Int) (e : DecErr) :
    (DecErr.char n).shown.plain = "CharDecodeError { code_point: ".toList ++ showNat n ++ [' ', '}'] ∧
    (DecErr.cString n).shown.plain = "CStringDecodeError { index: ".toList ++ showNat n ++ [' ', '}'] ∧
    DecErr.nonZero.shown.plain = "NonZeroDecodeError".toList ∧
    (DecErr.systemTime i).shown.plain = "SystemTimeDecodeError { timestamp: ".toList ++ showInt i ++ [' ', '}'] ∧
    (DecErr.length n k).shown.plain = "LengthError { capacity: ".toList ++ showNat n ++ ", len: ".toList ++
      showNat k ++ [' ', '}'] ∧
    (DecErr.utf8 v n).shown.plain = "Utf8Error { value: ".toList ++ showNat v.toNat ++ ", index: ".toList ++
      showNat n ++ [' ', '}'] ∧
    (DecErr.badLength e).shown.plain = "BadLength(".toList ++ e.shown.plain ++ [')'] ∧
    (DecErr.badItem e).shown.plain = "BadItem(".toList ++ e.shown.plain ++ [')'] ∧
    (DecErr.item n e).shown.plain = "ItemDecodeError { index: ".toList ++ showNat n ++ ", error: ".toList ++
      e.shown.plain ++ [' ', '}'] ∧
    (DecErr.unassigned i).shown.plain = "UnassignedDiscriminant { value: ".toList ++ showInt i ++ [' ', '}'] ∧
    (DecErr.badField e).shown.plain = "BadField(".toList ++ e.shown.plain ++ [')'] ∧
    (DecErr.gBadString v n).shown.plain = "BadString(".toList ++ (DecErr.utf8 v n).shown.plain ++ [')'] ∧
    (DecErr.gNullString n).shown.plain = "NullString(".toList ++ (DecErr.cString n).shown.plain ++ [')'] ∧
    DecErr.gNullInteger.shown.plain = "NullInteger(NonZeroDecodeError)".toList ∧
    (DecErr.gSmallBuffer n k).shown.plain = "SmallBuffer(".toList ++ (DecErr.length n k).shown.plain ++ [')'] ∧
    (DecErr.gUnassigned n).shown.plain = "UnassignedDiscriminant { value: ".toList ++ showNat n ++ [' ', '}'] ∧
    (DecErr.gNarrowSystemTime i).shown.plain =
      "NarrowSystemTime(".toList ++ (DecErr.systemTime i).shown.plain ++ [')'] := by
  have w : ∀ {n p : String} (x : Shown), p.toList = n.toList ++ ['('] →
      (Shown.wrap n x).plain = p.toList ++ x.plain ++ [')'] := Dbg.wrap_text
  rw [← Dbg.nat_text n, ← Dbg.nat_text k, ← Dbg.nat_text v.toNat]
  exact ⟨Dbg.struct1_text _ (by decide +kernel), Dbg.struct1_text _ (by decide +kernel), by decide +kernel,
    Dbg.struct1_text _ (by decide +kernel), Dbg.struct2_text _ _ (by decide +kernel) (by decide +kernel),
    Dbg.struct2_text _ _ (by decide +kernel) (by decide +kernel), w _ (by decide +kernel), w _ (by decide +kernel),
    Dbg.struct2_text _ _ (by decide +kernel) (by decide +kernel), Dbg.struct1_text _ (by decide +kernel),
    w _ (by decide +kernel), w _ (by decide +kernel), w _ (by decide +kernel), by decide +kernel,
    w _ (by decide +kernel), Dbg.struct1_text _ (by decide +kernel), w _ (by decide +kernel)⟩

/-- C147 (what is shown). The errors of strings and streams with `{:?}`. -/
theorem C147_others_text (n k m : Nat) (v : Byte) (h : BitVec 16) :
    (StringError.badUtf16 h n).shown.plain = "BadUtf16(Utf16Error { value: ".toList ++ showNat h.toNat ++
      ", index: ".toList ++ showNat n ++ [' ', '}', ')'] ∧
    (StringError.badUtf8 v n).shown.plain = "BadUtf8(".toList ++ (DecErr.utf8 v n).shown.plain ++ [')'] ∧
    (StringError.smallBuffer ⟨n, k⟩).shown.plain = "SmallBuffer(".toList ++ (DecErr.length n k).shown.plain ++ [')'] ∧
    (inputShown n k m).plain = "InputError { capacity: ".toList ++ showNat n ++ ", position: ".toList ++ showNat k ++
      ", count: ".toList ++ showNat m ++ [' ', '}'] ∧
    (outputShown n k m).plain = "OutputError { capacity: ".toList ++ showNat n ++ ", position: ".toList ++ showNat k ++
      ", count: ".toList ++ showNat m ++ [' ', '}'] := by
  have w : ∀ {n p : String} (x : Shown), p.toList = n.toList ++ ['('] →
      (Shown.wrap n x).plain = p.toList ++ x.plain ++ [')'] := Dbg.wrap_text
  rw [← Dbg.nat_text n, ← Dbg.nat_text k, ← Dbg.nat_text m, ← Dbg.nat_text h.toNat]
  refine ⟨?_, w _ (by decide +kernel), w _ (by decide +kernel),
    Dbg.struct3_text _ _ _ (by decide +kernel) (by decide +kernel) (by decide +kernel),
    Dbg.struct3_text _ _ _ (by decide +kernel) (by decide +kernel) (by decide +kernel)⟩
  have h1 : "BadUtf16(Utf16Error { value: ".toList = "BadUtf16(".toList ++ "Utf16Error { value: ".toList := by
    decide +kernel
  rw [h1]
  refine (w (p := "BadUtf16(") _ (by decide +kernel)).trans ?_
  rw [Dbg.struct2_text (p := "Utf16Error { value: ") (q := ", index: ") _ _ (by decide +kernel) (by decide +kernel)]
  simp

/-- C147. Two encode errors look alike in `{:?}` exactly if they are equal, and so they do in `{:#?}`, whatever
types they have. -/
theorem C147_encode (e e' : EncErr) :
    (e.shown.plain = e'.shown.plain ↔ e = e') ∧ (e.shown.pretty = e'.shown.pretty ↔ e = e') :=
  ⟨⟨fun h => Dbg.enc_shown_inj (Dbg.plain_inj (Dbg.named_enc e) (Dbg.named_enc e') h), fun h => by rw [h]⟩,
    ⟨fun h => Dbg.enc_shown_inj (Dbg.pretty_inj (Dbg.named_enc e) (Dbg.named_enc e') h), fun h => by rw [h]⟩⟩

/-- What is shown, in one line and in several. -/
example : (EncErr.badItem (.item 2 (.isize (-40000)))).shown.plain =
      "BadItem(ItemEncodeError { index: 2, error: IsizeEncodeError(-40000) })".toList ∧
    (EncErr.badItem (.item 2 (.isize (-40000)))).shown.pretty =
      ("BadItem(\n    ItemEncodeError {\n        index: 2,\n        error: IsizeEncodeError(\n" ++
        "            -40000,\n        ),\n    },\n)").toList ∧
    (EncErr.pair 1 .badBorrow).shown.plain = "(1, BadBorrow(BorrowError))".toList ∧
    (EncErr.item 1 (.usize 65536)).shown.plain ≠ (EncErr.item 16 (.usize 65536)).shown.plain :=
  ⟨by decide +kernel, by decide +kernel, by decide +kernel, fun h => absurd ((C147_encode _ _).1.mp h) (by decide)⟩

/-- C147. Two decode errors look alike in `{:?}`, and in `{:#?}`, exactly if they differ at most in which of the two
types with unassigned discriminants they have. -/
theorem C147_decode (e e' : DecErr) :
    (e.shown.plain = e'.shown.plain ↔ likeness e = likeness e') ∧
    (e.shown.pretty = e'.shown.pretty ↔ likeness e = likeness e') := by
  have hs : likeness e = likeness e' → e.shown = e'.shown := fun h => by
    rw [← Dbg.likeness_shown e, h, Dbg.likeness_shown]
  exact ⟨⟨fun h => Dbg.dec_shown_inj (Dbg.plain_inj (Dbg.named_dec e) (Dbg.named_dec e') h), fun h => by rw [hs h]⟩,
    ⟨fun h => Dbg.dec_shown_inj (Dbg.pretty_inj (Dbg.named_dec e) (Dbg.named_dec e') h), fun h => by rw [hs h]⟩⟩

example : (DecErr.badField (.gBadString 0xFF 3)).shown.plain =
      "BadField(BadString(Utf8Error { value: 255, index: 3 }))".toList ∧
    (DecErr.nonZero).shown.plain = "NonZeroDecodeError".toList ∧
    (DecErr.nonZero).shown.pretty = "NonZeroDecodeError".toList ∧
    (DecErr.char 0xD800).shown.pretty = "CharDecodeError {\n    code_point: 55296,\n}".toList ∧
    (DecErr.nonZero).shown.plain ≠ (DecErr.gNullInteger).shown.plain :=
  ⟨by decide +kernel, by decide +kernel, by decide +kernel, by decide +kernel,
    fun h => absurd ((C147_decode _ _).1.mp h) (by decide)⟩

/-- C147. Two decode errors of one type look alike exactly if they are equal. -/
theorem C147_decode_typed (E : DecTy) (e e' : DecErr) (h : DecHas E e) (h' : DecHas E e') :
    (e.shown.plain = e'.shown.plain ↔ e = e') ∧ (e.shown.pretty = e'.shown.pretty ↔ e = e') :=
  ⟨⟨fun hp => Dbg.dec_likeness_inj E h h' ((C147_decode e e').1.mp hp), fun h => by rw [h]⟩,
    ⟨fun hp => Dbg.dec_likeness_inj E h h' ((C147_decode e e').2.mp hp), fun h => by rw [h]⟩⟩

example : (DecErr.length 4 5).shown.plain ≠ (DecErr.length 45 5).shown.plain :=
  fun h => absurd ((C147_decode_typed .length _ _ ⟨_, _, rfl⟩ ⟨_, _, rfl⟩).1.mp h) (by decide)

/-- C147. What decodings of one type report differs exactly if it looks different. -/
theorem C147_reports (t : Ty) (ht : t.WF) (hd : t.decErr ≠ none) (i i' j j' : Input)
    (e e' : DecErr) (h : t.decode i = (.err e, i')) (h' : t.decode j = (.err e', j')) :
    (e.shown.plain = e'.shown.plain ↔ e = e') ∧ (e.shown.pretty = e'.shown.pretty ↔ e = e') := by
  obtain ⟨E, hE⟩ := Option.ne_none_iff_exists'.mp hd
  exact C147_decode_typed E e e' (C86_decode t ht i i' e E hE h) (C86_decode t ht j j' e' E hE h')

example : (DecErr.unassigned 5).shown.plain ≠ (DecErr.unassigned 7).shown.plain := fun h =>
  absurd ((C147_reports .ipAddr trivial (by decide) (Input.new [5]) ⟨[5], 1⟩ (Input.new [7])
    ⟨[7], 1⟩ _ _ (by decide +kernel) (by decide +kernel)).1.mp h) (by decide)

/-- C147. No encode error looks like a decode error. -/
theorem C147_apart (e : EncErr) (d : DecErr) :
    e.shown.plain ≠ d.shown.plain ∧ e.shown.pretty ≠ d.shown.pretty :=
  ⟨fun h => Dbg.enc_dec_apart e d (Dbg.plain_inj (Dbg.named_enc e) (Dbg.named_dec d) h),
    fun h => Dbg.enc_dec_apart e d (Dbg.pretty_inj (Dbg.named_enc e) (Dbg.named_dec d) h)⟩

example : (EncErr.badField (.usize 65536)).shown.plain ≠ (DecErr.badField .nonZero).shown.plain :=
  (C147_apart _ _).1

/-- C147. The errors of strings and of the streams look alike exactly if they are equal. -/
theorem C147_others (s s' : StringError) (a b c a' b' c' : Nat) :
    (s.shown.plain = s'.shown.plain ↔ s = s') ∧ (s.shown.pretty = s'.shown.pretty ↔ s = s') ∧
    ((inputShown a b c).plain = (inputShown a' b' c').plain ↔ a = a' ∧ b = b' ∧ c = c') ∧
    ((inputShown a b c).pretty = (inputShown a' b' c').pretty ↔ a = a' ∧ b = b' ∧ c = c') ∧
    ((outputShown a b c).plain = (outputShown a' b' c').plain ↔ a = a' ∧ b = b' ∧ c = c') ∧
    ((outputShown a b c).pretty = (outputShown a' b' c').pretty ↔ a = a' ∧ b = b' ∧ c = c') ∧
    (inputShown a b c).plain ≠ (outputShown a' b' c').plain ∧
    (inputShown a b c).pretty ≠ (outputShown a' b' c').pretty := by
  have hi : inputShown a b c = inputShown a' b' c' → a = a' ∧ b = b' ∧ c = c' := by
    intro h
    simp [inputShown, Shown.struct3] at h
    omega
  have ho : outputShown a b c = outputShown a' b' c' → a = a' ∧ b = b' ∧ c = c' := by
    intro h
    simp [outputShown, Shown.struct3] at h
    omega
  have hn : inputShown a b c ≠ outputShown a' b' c' := by
    intro h
    simp [inputShown, outputShown, Shown.struct3] at h
  refine ⟨⟨fun h => Dbg.string_shown_inj (Dbg.plain_inj (Dbg.named_string s) (Dbg.named_string s') h),
      fun h => by rw [h]⟩,
    ⟨fun h => Dbg.string_shown_inj (Dbg.pretty_inj (Dbg.named_string s) (Dbg.named_string s') h),
      fun h => by rw [h]⟩,
    ⟨fun h => hi (Dbg.plain_inj (Dbg.named_input ..) (Dbg.named_input ..) h), ?_⟩,
    ⟨fun h => hi (Dbg.pretty_inj (Dbg.named_input ..) (Dbg.named_input ..) h), ?_⟩,
    ⟨fun h => ho (Dbg.plain_inj (Dbg.named_output ..) (Dbg.named_output ..) h), ?_⟩,
    ⟨fun h => ho (Dbg.pretty_inj (Dbg.named_output ..) (Dbg.named_output ..) h), ?_⟩,
    fun h => hn (Dbg.plain_inj (Dbg.named_input ..) (Dbg.named_output ..) h),
    fun h => hn (Dbg.pretty_inj (Dbg.named_input ..) (Dbg.named_output ..) h)⟩ <;>
  · rintro ⟨rfl, rfl, rfl⟩
    rfl

example : (inputShown 8 6 4).plain = "InputError { capacity: 8, position: 6, count: 4 }".toList ∧
    (outputShown 8 6 4).plain = "OutputError { capacity: 8, position: 6, count: 4 }".toList ∧
    (StringError.badUtf16 0xD800 2).shown.plain = "BadUtf16(Utf16Error { value: 55296, index: 2 })".toList ∧
    (StringError.smallBuffer ⟨4, 5⟩).shown.plain = "SmallBuffer(LengthError { capacity: 4, len: 5 })".toList := by
  decide +kernel

/-- C147. What is shown of an error has in it what is shown of each error in its chain of sources. -/
theorem C147_sources (c r : Cause) (h : Leads c r) : OccursIn r.shown.plain c.shown.plain :=
  Dbg.occurs_leads h

example : OccursIn "UsizeEncodeError(65536)".toList
    "BadItem(ItemEncodeError { index: 2, error: UsizeEncodeError(65536) })".toList := by
  have := C147_sources (.enc (.badItem (.item 2 (.usize 65536)))) (.enc (.usize 65536))
    (.step rfl (.step rfl (.refl _)))
  have h1 : (Cause.enc (.usize 65536)).shown.plain = "UsizeEncodeError(65536)".toList := by decide +kernel
  have h2 : (Cause.enc (.badItem (.item 2 (.usize 65536)))).shown.plain =
      "BadItem(ItemEncodeError { index: 2, error: UsizeEncodeError(65536) })".toList := by decide +kernel
  rwa [h1, h2] at this

/-- C147 is false of decode errors of different types: an enumeration's error and a derived type's look alike. Their
messages differ. -/
theorem C147_false : (DecErr.unassigned 5).shown.plain = (DecErr.gUnassigned 5).shown.plain ∧
    (DecErr.unassigned 5).shown.pretty = (DecErr.gUnassigned 5).shown.pretty ∧
    DecErr.unassigned 5 ≠ DecErr.gUnassigned 5 ∧
    (DecErr.unassigned 5).message ≠ (DecErr.gUnassigned 5).message := by
  refine ⟨rfl, rfl, by decide, ?_⟩
  unfold DecErr.message text
  decide +kernel

end Oct.Props
