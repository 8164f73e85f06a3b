import Verif.Spec.Writers
/-
Helper lemmas: formatting with writers that may refuse.
-/
namespace Oct
open Spec FmtPiece

variable {σ : Type}

theorem offer_append (w : Writer σ) : ∀ (l m : List (List Char)) (s : σ),
    offer w (l ++ m) s = if (offer w l s).1 then offer w m (offer w l s).2 else offer w l s
  | [], m, s => rfl
  | p :: l, m, s => by
    rw [List.cons_append, offer, offer]
    split
    · exact offer_append w l m _
    · rfl

theorem Spec.Utters.nil (o : FmtOptions) : Utters (writeFmt ([] : List (FmtPiece σ))) o [] :=
  ⟨[], rfl, fun _ _ => rfl⟩

theorem Spec.Utters.lit {l : List (FmtPiece σ)} {o : FmtOptions} {t : List Char} (s : List Char)
    (h : Utters (writeFmt l) o t) : Utters (writeFmt (.lit s :: l)) o (s ++ t) := by
  obtain ⟨ps, e, h⟩ := h
  cases s with
  | nil => exact ⟨ps, e, fun w s => h w s⟩
  | cons c cs =>
    refine ⟨(c :: cs) :: ps, by rw [List.flatten_cons, e], fun w s => ?_⟩
    rw [writeFmt, offer]
    rcases hw : w (c :: cs) s with ⟨b, s'⟩
    cases b with
    | true => exact h w s'
    | false => rfl

theorem Spec.Utters.arg {l : List (FmtPiece σ)} {o p : FmtOptions} {f : Shower σ} {t u : List Char} (hf : Utters f p u)
    (h : Utters (writeFmt l) o t) : Utters (writeFmt (.arg p f :: l)) o (u ++ t) := by
  obtain ⟨ps, e, h⟩ := h
  obtain ⟨qs, e', hf⟩ := hf
  refine ⟨qs ++ ps, by rw [List.flatten_append, e, e'], fun w s => ?_⟩
  rw [writeFmt, offer_append, hf w s]
  rcases hq : offer w qs s with ⟨b, s'⟩
  cases b with
  | true => exact h w s'
  | false => rfl

theorem Spec.Utters.only {o p : FmtOptions} {f : Shower σ} {u : List Char} (hf : Utters f p u) :
    Utters (writeFmt [.arg p f]) o u := by
  have := Utters.arg hf (Utters.nil o)
  rwa [List.append_nil] at this

/-- A literal at the beginning. -/
theorem Spec.Utters.str {l : List (FmtPiece σ)} {o : FmtOptions} {t : List Char} (s : String)
    (h : Utters (writeFmt l) o t) : Utters (writeFmt (FmtPiece.str s :: l)) o (text s ++ t) := Utters.lit _ h

theorem Spec.Utters.last {o : FmtOptions} (s : String) : Utters (writeFmt [FmtPiece.str (σ := σ) s]) o (text s) := by
  have := Utters.str (σ := σ) s (Utters.nil o)
  rwa [List.append_nil] at this

/-- An argument. -/
theorem Spec.Utters.shown {l : List (FmtPiece σ)} {o : FmtOptions} {f : Shower σ} {t u : List Char} (hf : Utters f .plain u)
    (h : Utters (writeFmt l) o t) : Utters (writeFmt (FmtPiece.shown f :: l)) o (u ++ t) := Utters.arg hf h

theorem Spec.Utters.end {o : FmtOptions} {f : Shower σ} {u : List Char} (hf : Utters f .plain u) :
    Utters (writeFmt [FmtPiece.shown f]) o u := Utters.only hf

theorem Spec.Utters.cast {f : Shower σ} {o : FmtOptions} {t u : List Char} (h : Utters f o t) (e : t = u) : Utters f o u := e ▸ h

theorem padIntegral_zero (w n : Nat) :
    padIntegral { zeroPad := true, width := some w } ['0', 'x'] (numeral 16 n) = showHex w n := by
  simp [padIntegral, showHex]

theorem padIntegral_alt (w n : Nat) :
    padIntegral { alternate := true, zeroPad := true, width := some w } ['0', 'x'] (numeral 16 n)
      = showHexAlt w n := by
  have e : w - (2 + (numeral 16 n).length) = w - 2 - (numeral 16 n).length := by omega
  simp [padIntegral, showHexAlt, showHex, e]

theorem padIntegral_alt0 (n : Nat) :
    padIntegral { alternate := true } ['0', 'x'] (numeral 16 n) = showHexAlt 0 n := by
  simp [padIntegral, showHexAlt, showHex, padded]

theorem showInt_nat (n : Nat) : showInt (n : Int) = showNat n := by
  have : ¬ ((n : Int) < 0) := by omega
  simp [showInt, showNat, this]

theorem usize_text : text ") cannot be serialised: must be at most (" ++ (showInt 65535 ++ text ")")
    = text ") cannot be serialised: must be at most (65535)" := by
  unfold text; decide +kernel

theorem isize_text : text ") cannot be serialised: must be in the range (" ++ (showInt (-32768) ++ (text ") to (" ++
      (showInt 32767 ++ text ")")))
    = text ") cannot be serialised: must be in the range (-32768) to (32767)" := by
  unfold text; decide +kernel

variable {std : StdFmt σ}

theorem Spec.StdLawful.nat (h : StdLawful std) (n : Nat) : Utters (std.int n) .plain (showNat n) :=
  (h.int n).cast (showInt_nat n)

theorem fmtUsize_utters (h : StdLawful std) (o : FmtOptions) (n : Nat) :
    Utters (writeFmt [str "unsigned size value (", shown (std.int n),
      str ") cannot be serialised: must be at most (", shown (std.int 65535), str ")"]) o (EncErr.usize n).message := by
  refine (Utters.str _ (.shown (h.nat n) (.str _ (.shown (h.int _) (.last _))))).cast ?_
  rw [usize_text, EncErr.message, List.append_assoc]

theorem fmtIsize_utters (h : StdLawful std) (o : FmtOptions) (i : Int) :
    Utters (writeFmt [str "signed size value (", shown (std.int i),
      str ") cannot be serialised: must be in the range (", shown (std.int (-32768)), str ") to (",
      shown (std.int 32767), str ")"]) o (EncErr.isize i).message := by
  refine (Utters.str _ (.shown (h.int i) (.str _ (.shown (h.int _) (.str _ (.shown (h.int _) (.last _))))))).cast ?_
  rw [isize_text, EncErr.message, List.append_assoc]

theorem EncErr.fmt_utters (h : StdLawful std) : ∀ (e : EncErr) (o : FmtOptions), Utters (e.fmt std) o e.message
  | .usize n, o => fmtUsize_utters h o n
  | .isize i, o => fmtIsize_utters h o i
  | .badLength e, o => .str _ (.end (e.fmt_utters h _))
  | .badItem e, o => .str _ (.end (e.fmt_utters h _))
  | .item i e, o => by
    refine (Utters.str _ (.shown (h.nat i) (.str _ (.end (e.fmt_utters h _))))).cast ?_
    simp only [EncErr.message, List.append_assoc]
  | .pair _ _, o => ⟨[], rfl, fun _ _ => rfl⟩
  | .badDiscriminant e, o => .str _ (.end (e.fmt_utters h _))
  | .badField e, o => .str _ (.end (e.fmt_utters h _))
  | .badBorrow, o => .str _ (.end h.borrow)
  | .badValue e, o => .str _ (.end (e.fmt_utters h _))
  | .gLargeUsize n, o => .end (fmtUsize_utters h _ n)
  | .gLargeIsize i, o => .end (fmtIsize_utters h _ i)

theorem fmtUtf8_utters (h : StdLawful std) (o : FmtOptions) (v : Byte) (i : Nat) :
    Utters (fmtUtf8 std v i) o (DecErr.utf8 v i).message := by
  refine (Utters.str _ (.arg (h.upperHex _ _) (.str _ (.shown (h.nat i) (.last _))))).cast ?_
  simp only [padIntegral_alt, DecErr.message, List.append_assoc]

theorem fmtCString_utters (h : StdLawful std) (o : FmtOptions) (i : Nat) :
    Utters (fmtCString std i) o (DecErr.cString i).message := by
  refine (Utters.str _ (.shown (h.nat i) (.last _))).cast ?_
  simp only [DecErr.message, List.append_assoc]

theorem fmtSystemTime_utters (h : StdLawful std) (o : FmtOptions) (t : Int) :
    Utters (fmtSystemTime std t) o (DecErr.systemTime t).message := by
  refine (Utters.str _ (.shown (h.int t) (.last _))).cast ?_
  simp only [DecErr.message, List.append_assoc]

theorem fmtLength_utters (h : StdLawful std) (o : FmtOptions) (c l : Nat) :
    Utters (fmtLength std c l) o (DecErr.length c l).message := by
  refine (Utters.str _ (.shown (h.nat c) (.str _ (.shown (h.nat l) (.last _))))).cast ?_
  simp only [DecErr.message, List.append_assoc]

theorem DecErr.fmt_utters (h : StdLawful std) : ∀ (e : DecErr) (o : FmtOptions), Utters (e.fmt std) o e.message
  | .char c, o => by
    refine (Utters.str _ (.arg (h.upperHex _ _) (.last _))).cast ?_
    simp only [padIntegral_zero, DecErr.message, List.append_assoc]
  | .cString i, o => fmtCString_utters h o i
  | .nonZero, o => .last _
  | .systemTime t, o => fmtSystemTime_utters h o t
  | .length c l, o => fmtLength_utters h o c l
  | .utf8 v i, o => fmtUtf8_utters h o v i
  | .badLength e, o => .str _ (.end (e.fmt_utters h _))
  | .badItem e, o => .str _ (.end (e.fmt_utters h _))
  | .item i e, o => by
    refine (Utters.str _ (.shown (h.nat i) (.str _ (.end (e.fmt_utters h _))))).cast ?_
    simp only [DecErr.message, List.append_assoc]
  | .unassigned v, o => by
    refine (Utters.str _ (.shown (h.int v) (.last _))).cast ?_
    simp only [DecErr.message, List.append_assoc]
  | .badField e, o => .str _ (.end (e.fmt_utters h _))
  | .gBadString v i, o => .end (fmtUtf8_utters h _ v i)
  | .gNullString i, o => .end (fmtCString_utters h _ i)
  | .gNullInteger, o => .end (Utters.last _)
  | .gSmallBuffer c l, o => .end (fmtLength_utters h _ c l)
  | .gUnassigned v, o => by
    refine (Utters.str _ (.arg (h.upperHex _ _) (.last _))).cast ?_
    simp only [padIntegral_alt0, DecErr.message, List.append_assoc]
  | .gNarrowSystemTime t, o => .end (fmtSystemTime_utters h _ t)

theorem fmtUtf16_utters (h : StdLawful std) (o : FmtOptions) (v : BitVec 16) (i : Nat) :
    Utters (fmtUtf16 std v i) o (utf16Message v i) := by
  refine (Utters.str _ (.arg (h.upperHex _ _) (.str _ (.shown (h.nat i) (.last _))))).cast ?_
  simp only [padIntegral_alt, utf16Message, List.append_assoc]

theorem StringError.fmt_utters (h : StdLawful std) : ∀ (e : StringError) (o : FmtOptions), Utters (e.fmt std) o e.message
  | .badUtf16 v i, _ => .str _ (.end (fmtUtf16_utters h _ v i))
  | .badUtf8 v i, _ => .str _ (.end (fmtUtf8_utters h _ v i))
  | .smallBuffer e, _ => .str _ (.end (fmtLength_utters h _ e.capacity e.len))

theorem fmtInput_utters (h : StdLawful std) (o : FmtOptions) (c p n : Nat) :
    Utters (fmtInput std c p n) o (inputMessage c p n) := by
  refine (Utters.str _ (.shown (h.nat n) (.str _ (.shown (h.nat p) (.str _ (.shown (h.nat c) (.last _))))))).cast ?_
  simp only [inputMessage, List.append_assoc]

theorem fmtOutput_utters (h : StdLawful std) (o : FmtOptions) (c p n : Nat) :
    Utters (fmtOutput std c p n) o (outputMessage c p n) := by
  refine (Utters.str _ (.shown (h.nat n) (.str _ (.shown (h.nat p) (.str _ (.shown (h.nat c) (.last _))))))).cast ?_
  simp only [outputMessage, List.append_assoc]

theorem offer_roomy (n : Nat) : ∀ (ps : List (List Char)) (s : List Char), s.length ≤ n →
    offer (roomy n) ps s = (decide (s.length + ps.flatten.length ≤ n), (s ++ ps.flatten).take n)
  | [], s, h => by
    simp only [offer, List.flatten_nil, List.append_nil, List.length_nil, Nat.add_zero, h, decide_true,
      List.take_of_length_le]
  | p :: ps, s, h => by
    rw [offer]
    by_cases hp : s.length + p.length ≤ n
    · have e1 : roomy n p s = (true, s ++ p) := by
        unfold roomy
        rw [decide_eq_true hp, List.take_of_length_le (by rw [List.length_append]; exact hp)]
      rw [e1, if_pos rfl, offer_roomy n ps _ (by rw [List.length_append]; exact hp)]
      simp only [List.length_append, List.flatten_cons, List.append_assoc, Nat.add_assoc]
    · have e1 : roomy n p s = (false, (s ++ p).take n) := by
        unfold roomy
        rw [decide_eq_false hp]
      rw [e1, if_neg (by simp), List.flatten_cons, decide_eq_false (by rw [List.length_append]; omega),
        ← List.append_assoc,
        List.take_append_of_le_length (l₁ := s ++ p) (by rw [List.length_append]; omega)]

theorem offer_noted (w : Writer σ) : ∀ (ps : List (List Char)) (s : σ) (l : List Bool),
    ∃ k, (offer (noted w) ps (s, l)).1 = (offer w ps s).1 ∧ (offer (noted w) ps (s, l)).2.1 = (offer w ps s).2 ∧
      (offer (noted w) ps (s, l)).2.2
        = l ++ List.replicate k true ++ (if (offer w ps s).1 then [] else [false])
  | [], s, l => ⟨0, rfl, rfl, by simp [offer]⟩
  | p :: ps, s, l => by
    by_cases hw : (w p s).1 = true
    · obtain ⟨k, h1, h2, h3⟩ := offer_noted w ps (w p s).2 (l ++ [true])
      have e1 : offer w (p :: ps) s = offer w ps (w p s).2 := by rw [offer, if_pos hw]
      have e2 : offer (noted w) (p :: ps) (s, l) = offer (noted w) ps ((w p s).2, l ++ [true]) := by
        rw [offer]
        have : noted w p (s, l) = (true, (w p s).2, l ++ [true]) := by unfold noted; simp only [hw]
        rw [this, if_pos rfl]
      rw [e1, e2]
      refine ⟨k + 1, h1, h2, ?_⟩
      rw [h3, List.replicate_succ]
      simp only [List.append_assoc, List.cons_append, List.nil_append]
    · have e1 : offer w (p :: ps) s = w p s := by rw [offer, if_neg hw]
      have hf : (w p s).1 = false := by simpa using hw
      have e2 : offer (noted w) (p :: ps) (s, l) = (false, (w p s).2, l ++ [false]) := by
        rw [offer]
        have : noted w p (s, l) = (false, (w p s).2, l ++ [false]) := by unfold noted; simp only [hf]
        rw [this]; rfl
      rw [e1, e2]
      exact ⟨0, hf.symm, rfl, by simp [hf]⟩

end Oct
