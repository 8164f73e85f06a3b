import Verif.Proofs.SizedSlice
import Verif.Proofs.Writers
/- Formatting with writers that may refuse, and with options: C149. -/
namespace Oct.Props
open Spec FmtPiece

variable {σ : Type}

/-- C149. `{}` of every error writes its message (C90) piece by piece; if the writer refuses a piece, it is given no more and
the failure is returned. For all writers and all ways in which the standard library cuts numbers into pieces. The options
make no difference, see `C149_false`. -/
theorem C149_errors (std : StdFmt σ) (h : StdLawful std) (o : FmtOptions) :
    (∀ e : EncErr, Utters (e.fmt std) o e.message) ∧ (∀ e : DecErr, Utters (e.fmt std) o e.message) ∧
    (∀ e : StringError, Utters (e.fmt std) o e.message) ∧
    (∀ v i, Utters (fmtUtf16 std v i) o (utf16Message v i)) ∧
    (∀ c p n, Utters (fmtInput std c p n) o (inputMessage c p n)) ∧
    ∀ c p n, Utters (fmtOutput std c p n) o (outputMessage c p n) :=
  ⟨fun e => e.fmt_utters h o, fun e => e.fmt_utters h o, fun e => e.fmt_utters h o, fmtUtf16_utters h o,
    fmtInput_utters h o, fmtOutput_utters h o⟩

/-- C149. So does whatever else is written with `write!`, if what is shown by it does: errors hold those of items, which are
of any type. -/
theorem C149_write (l : List (FmtPiece σ)) (t : FmtPiece σ → List Char) (ht : ∀ s, t (.lit s) = s)
    (h : ∀ p f, .arg p f ∈ l → Utters f p (t (.arg p f))) (o : FmtOptions) :
    Utters (writeFmt l) o (l.flatMap t) := by
  induction l with
  | nil => exact .nil o
  | cons a l ih =>
    have ih := ih fun p f hm => h p f (.tail _ hm)
    cases a with
    | lit s =>
      rw [List.flatMap_cons, ht]
      exact .lit s ih
    | arg p f =>
      rw [List.flatMap_cons]
      exact .arg (h p f (.head _)) ih

/-- C149. A writer with room for `n` characters then has the text as far as it fits, and formatting fails if and only if it
does not fit as a whole. -/
theorem C149_room (f : Shower (List Char)) (o : FmtOptions) (t : List Char) (h : Utters f o t) (n : Nat) (s : List Char)
    (hs : s.length ≤ n) : f (roomy n) o s = (decide (s.length + t.length ≤ n), (s ++ t).take n) := by
  obtain ⟨ps, e, h⟩ := h
  rw [h, offer_roomy n ps s hs, e]

/-- C149. The writer is not called again after it failed: of what its calls come to, only the last can be a failure, and
formatting fails if and only if it is. The state of the writer is that after the calls. -/
theorem C149_stops (f : Shower (σ × List Bool)) (o : FmtOptions) (t : List Char) (h : Utters f o t) (w : Writer σ) (s : σ) :
    ∃ k, (f (noted w) o (s, [])).2.2
      = List.replicate k true ++ (if (f (noted w) o (s, [])).1 then [] else [false]) := by
  obtain ⟨ps, e, h⟩ := h
  obtain ⟨k, h1, _, h3⟩ := offer_noted w ps s []
  refine ⟨k, ?_⟩
  rw [h, h1, h3, List.nil_append]

/-- C149. If the writer never fails, formatting does not, and what the writer is given is the text. -/
theorem C149_all (f : Shower (List Char)) (o : FmtOptions) (t : List Char) (h : Utters f o t) (s : List Char) :
    f (fun p s => (true, s ++ p)) o s = (true, s ++ t) := by
  obtain ⟨ps, rfl, h⟩ := h
  rw [h]
  clear h
  induction ps generalizing s with
  | nil => simp [offer]
  | cons p ps ih =>
    rw [offer, if_pos rfl, ih, List.flatten_cons, List.append_assoc]

/-- C149. Containers leave it to the impl for their contents, with the same writer and options, whatever that impl does. -/
theorem C149_contents {α : Type} (slice : List α → Shower σ) (items : List α) (rest : List (MaybeUninit α))
    (str : List Byte → Shower σ) (octets : List Byte) (spare : List (MaybeUninit Byte)) (w : Writer σ) (o : FmtOptions)
    (st : σ) :
    SizedSlice.fmt slice ⟨items.map some ++ rest, items.length⟩ w o st = .ok (slice items w o st) ∧
    SizedStr.fmt str ⟨⟨octets.map some ++ spare, octets.length⟩⟩ w o st = .ok (str octets w o st) := by
  have h : ∀ {α : Type} (items : List α) (rest : List (MaybeUninit α)),
      (⟨items.map some ++ rest, items.length⟩ : SizedSlice α).asSlice (ε := Empty) = .ok items :=
    fun _ _ => sliceOf_ok.2 ⟨by simp, by simp⟩
  exact ⟨by rw [SizedSlice.fmt, h, Res.andRun], by rw [SizedStr.fmt, h, Res.andRun]⟩

/-- C149. Slots do with the same writer, but without the options. -/
theorem C149_slot (slice : List Byte → Shower σ) (s : Slot) (hs : s.len ≤ s.buf.length) (w : Writer σ) (o : FmtOptions)
    (st : σ) : s.fmt slice w o st = .ok (slice (s.buf.take s.len) w .plain st) := by
  rw [Slot.fmt, Slot.asSlice, if_neg (Nat.not_lt.2 hs), Res.andRun]
  congr 1
  show (match slice (s.buf.take s.len) w .plain st with
    | (true, s) => writeFmt [] w o s
    | (false, s) => (false, s)) = _
  rcases slice (s.buf.take s.len) w .plain st with ⟨b, s'⟩
  cases b <;> rfl

/-- C149 is false of options: `{:60}` of an error gives as many characters as its message has, which are fewer, for all
errors with a message that short. -/
theorem C149_false (std : StdFmt (List Char)) (h : StdLawful std) (w : Nat) :
    (∀ e : EncErr, e.message.length < w →
      ((e.fmt std) (fun p s => (true, s ++ p)) { width := some w } []).2.length < w) ∧
    (∀ e : DecErr, e.message.length < w →
      ((e.fmt std) (fun p s => (true, s ++ p)) { width := some w } []).2.length < w) ∧
    DecErr.nonZero.message.length = 39 := by
  refine ⟨fun e he => ?_, fun e he => ?_, by unfold DecErr.message text; decide +kernel⟩
  · rw [C149_all _ _ _ (e.fmt_utters h _)]; exact he
  · rw [C149_all _ _ _ (e.fmt_utters h _)]; exact he

/-! The hypotheses can be met: everything in one piece. -/

def wholeStd : StdFmt σ where
  int i w _ s := w (showInt i) s
  upperHex n w o s := w (padIntegral o ['0', 'x'] (numeral 16 n)) s
  borrow w _ s := w borrowMessage s

theorem wholeStd_lawful : StdLawful (wholeStd (σ := σ)) := by
  have h : ∀ (t : List Char) (w : Writer σ) (s : σ), w t s = offer w [t] s := by
    intro t w s
    rw [offer]
    rcases hw : w t s with ⟨b, s'⟩
    cases b <;> rfl
  exact ⟨fun i => ⟨[showInt i], by simp, fun w s => h _ w s⟩, fun n o => ⟨[_], by simp, fun w s => h _ w s⟩,
    ⟨[borrowMessage], by simp, fun w s => h _ w s⟩⟩

example : (DecErr.gSmallBuffer 2 3).fmt wholeStd (roomy 30) {} []
    = (false, "collection of size (2) cannot ".toList) := by
  unfold DecErr.fmt fmtLength FmtPiece.str text; decide +kernel
example : (DecErr.gSmallBuffer 2 3).fmt wholeStd (roomy 50) {} []
    = (true, "collection of size (2) cannot hold (3) elements".toList) := by
  unfold DecErr.fmt fmtLength FmtPiece.str text; decide +kernel
example : ((DecErr.gSmallBuffer 2 3).fmt wholeStd (noted (roomy 21)) {} ([], [])).2.2 = [true, true, false] := by
  unfold DecErr.fmt fmtLength FmtPiece.str text; decide +kernel
example : (DecErr.utf8 7 3).fmt wholeStd (roomy 50) {} []
    = (true, "found invalid utf-8 octet 0x7 at offset (3)".toList) := by
  unfold DecErr.fmt fmtUtf8 FmtPiece.str text; decide +kernel

end Oct.Props
