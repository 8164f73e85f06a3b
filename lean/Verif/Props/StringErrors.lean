import Verif.Proofs.StringErrors
import Verif.Props.SizedStrings
/-
C88, C90: errors of sized strings.
-/
namespace Oct.Props
open Oct Spec
set_option linter.unusedVariables false

/-- C90. Errors of sized strings have different messages. -/
theorem C90_string_messages (e e' : StringError) (h : e.message = e'.message) : e = e' := by
  cases e <;> cases e' <;> simp only [StringError.message] at h
  · obtain ⟨rfl, rfl⟩ := utf16Message_inj (List.append_cancel_left h)
    rfl
  · exact absurd h (append_ne _ _ _ _ (by unfold text; decide +kernel))
  · exact absurd h (append_ne _ _ _ _ (by unfold text; decide +kernel))
  · exact absurd h (append_ne _ _ _ _ (by unfold text; decide +kernel))
  · next e e' =>
    obtain ⟨c, l⟩ := e
    obtain ⟨c', l'⟩ := e'
    obtain ⟨h1, h2⟩ := lengthMessage_inj (List.append_cancel_left h)
    cases h1
    cases h2
    rfl
  · exact absurd h (append_ne _ _ _ _ (by unfold text; decide +kernel))
  · exact absurd h (append_ne _ _ _ _ (by unfold text; decide +kernel))
  · exact absurd h (append_ne _ _ _ _ (by unfold text; decide +kernel))
  · obtain ⟨rfl, rfl⟩ := utf8Message_inj (List.append_cancel_left h)
    rfl

example : (StringError.badUtf16 0xD800#16 3).message
      = text "bad utf-16: found invalid utf-16 hextet 0xD800 at offset (3)" ∧
    (StringError.badUtf16 0x5#16 3).message
      = text "bad utf-16: found invalid utf-16 hextet 0x05 at offset (3)" ∧
    (StringError.badUtf8 0xF7 1).message = text "bad utf-8: found invalid utf-8 octet 0xF7 at offset (1)" ∧
    (StringError.smallBuffer ⟨4, 5⟩).message
      = text "buffer too small: collection of size (4) cannot hold (5) elements" := by
  simp only [StringError.message, utf16Message, DecErr.message]
  unfold text
  decide +kernel

/-- C90. A hextet is written in hexadecimal with at least two digits, but not with all four: the prefix counts
as two of the characters that `{:#04X}` asks for. -/
theorem C90_hextet (v : BitVec 16) (i : Nat) : ∃ ds, utf16Message v i
      = text "found invalid utf-16 hextet " ++ ('0' :: 'x' :: ds) ++ text " at offset (" ++ showNat i ++ text ")" ∧
    numVal 16 ds = v.toNat ∧ (∀ x ∈ ds, IsDigit x) ∧ (v.toNat < 16 ^ 2 → ds.length = 2) ∧
    (16 ^ 2 ≤ v.toNat → v.toNat < 16 ^ 3 → ds.length = 3) ∧ (16 ^ 3 ≤ v.toNat → ds.length = 4) :=
  ⟨showHex 2 v.toNat, rfl, showHex_val 2 _, showHex_isDigit 2 _,
    fun h => showHex_length 2 _ 1 (by decide) h (.inl rfl),
    fun h1 h2 => showHex_length 2 _ 2 (by decide) h2 (.inr h1),
    fun h => showHex_length 2 _ 3 (by decide) v.isLt (.inr h)⟩

/-- C88. The errors of sized strings have a cause, which has none itself, and whose message is the end of
theirs. -/
theorem C88_string (e : StringError) :
    ∃ c pre, e.source = some c ∧ c.source = none ∧ e.message = pre ++ c.message := by
  cases e <;> exact ⟨_, _, rfl, rfl, rfl⟩

/-- C88. What `SizedStr::new`, `from_utf8`, `from_str` and `try_from` report is never about UTF-16, so that the
arm `unreachable!()` of `SizedStr::decode` is not reached. -/
theorem C88_string_reached (n : Nat) (s : Str) (bs : List Byte) (c : Char) (hc : Utf8.valid (charUtf8 c) = true)
    (v : BitVec 16) (i : Nat) :
    SizedStr.new n s ≠ .err (.badUtf16 v i) ∧ SizedStr.fromUtf8 n bs ≠ .err (.badUtf16 v i) ∧
    SizedStr.fromStr n s ≠ .err (.badUtf16 v i) ∧ SizedStr.tryFromChar n c hc ≠ .err (.badUtf16 v i) := by
  have hu : ∀ l : List Byte, (SizedStr.fromUtf8Unchecked n l : Res StringError SizedStr) ≠ .err (.badUtf16 v i) := by
    intro l h
    unfold SizedStr.fromUtf8Unchecked at h
    split at h <;> cases h
  have hs : ∀ s : Str, SizedStr.fromStr n s ≠ .err (.badUtf16 v i) := by
    intro s h
    unfold SizedStr.fromStr at h
    split at h
    · cases h
    · exact hu _ h
  refine ⟨?_, ?_, hs s, hs _⟩
  · intro h
    unfold SizedStr.new at h
    split at h
    · cases h
    · exact hu _ h
  · intro h
    unfold SizedStr.fromUtf8 at h
    split at h
    · cases h
    · split at h
      · exact hu _ h
      · split at h <;> cases h

/-- `from_utf8` of an overlong text and of a bad one. -/
example : SizedStr.fromUtf8 1 [0x41, 0x42] = .err (.smallBuffer ⟨1, 2⟩) ∧
    SizedStr.fromUtf8 1 [0xF7] = .err (.badUtf8 0xF7 0) := by decide

end Oct.Props
