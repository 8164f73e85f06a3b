import Verif.Proofs.RecursiveEnds
import Verif.Proofs.Ends
/-
That decoding a recursive type ends on the empty input only if nothing leads back to itself without
reading.
-/
namespace Oct
open Spec
set_option linter.unusedVariables false

/-- The mark is hit. -/
abbrev Res.Marked {ε α : Type} (r : Res ε α) : Prop := r = .panic .infallible

/-- Decoding succeeds without any octets. -/
def Blank {α : Type} (d : Dec α) : Prop := ∃ v, Decodes d [] v

/-- The input without octets. -/
abbrev none' : Input := ⟨[], 0⟩

theorem none'_wf : none'.WF := Nat.le_refl 0

theorem Blank.at {α : Type} {d : Dec α} (h : Blank d) (i : Input) (hi : i.WF) :
    ∃ v, d i = (.ok v, i) := by
  obtain ⟨v, h⟩ := h
  refine ⟨v, ?_⟩
  obtain ⟨buf, pos⟩ := i
  have h := h (buf.take pos) (buf.drop pos)
  have hl : (buf.take pos).length = pos := by
    rw [List.length_take]
    exact Nat.min_eq_left hi
  rw [List.nil_append, List.take_append_drop, hl] at h
  exact h

/-- What a decoder that looks only at what it consumes does without octets, if it needs none. -/
theorem still_of_at {α : Type} {d : Dec α} (hl : Local d) {v : α} {i : Input}
    (h : d none' = (.ok v, i)) : Blank d := by
  refine ⟨v, fun pre rest => ?_⟩
  obtain ⟨r, n, hn, h1, h2⟩ := hl []
  have h0 : n = 0 := Nat.le_zero.mp hn
  subst h0
  have h1 := h1 []
  rw [show (⟨[] ++ [], ([] : List Byte).length⟩ : Input) = none' from rfl, h] at h1
  have hr : r = .ok v := (Prod.mk.inj h1).1.symm
  subst hr
  exact h2 (by simp) pre rest

theorem marked_of_at {α : Type} {d : Dec α} (hl : Local d) (h : (d none').1.Marked) (i : Input)
    (hi : i.WF) : d i = (.panic .infallible, i) := by
  obtain ⟨r, n, hn, h1, h2⟩ := hl []
  have h0 : n = 0 := Nat.le_zero.mp hn
  subst h0
  have h1 := h1 []
  rw [show (⟨[] ++ [], ([] : List Byte).length⟩ : Input) = none' from rfl] at h1
  have hr : r = .panic .infallible := by rw [← h, h1]
  subst hr
  obtain ⟨buf, pos⟩ := i
  have h := h2 (by simp) (buf.take pos) (buf.drop pos)
  have hl : (buf.take pos).length = pos := by
    rw [List.length_take]
    exact Nat.min_eq_left hi
  rw [List.take_nil, List.nil_append, List.take_append_drop, hl] at h
  exact h

theorem unmarked_bind {α β : Type} {m : Dec α} {f : α → Dec β} {i : Input}
    (h : ¬ ((m >>= f) i).1.Marked) : ¬ (m i).1.Marked := by
  intro hm
  apply h
  show (Dec.bind m f i).1 = _
  unfold Dec.bind
  generalize m i = q at hm
  obtain ⟨r, i'⟩ := q
  cases hm
  rfl

theorem unmarked_mapErr {α : Type} {m : Dec α} {g : DecErr → DecErr} {i : Input}
    (h : ¬ (m.mapErr g i).1.Marked) : ¬ (m i).1.Marked := by
  intro hm
  apply h
  unfold Dec.mapErr
  generalize m i = q at hm
  obtain ⟨r, i'⟩ := q
  cases hm
  rfl

theorem unmarked_rest {α β : Type} {m : Dec α} {f : α → Dec β} {i i' : Input} {v : α}
    (h : ¬ ((m >>= f) i).1.Marked) (hm : m i = (.ok v, i')) : ¬ (f v i').1.Marked := by
  intro hf
  apply h
  show (Dec.bind m f i).1 = _
  unfold Dec.bind
  rw [hm]
  exact hf

theorem mapErr_ok {α : Type} {m : Dec α} {g : DecErr → DecErr} {i i' : Input} {v : α}
    (hm : m i = (.ok v, i')) : m.mapErr g i = (.ok v, i') := by
  unfold Dec.mapErr
  rw [hm]
  rfl

/-- Decoders of increasing depth: one more does the same, unless the mark is hit. -/
structure Deepens {α : Nat → Type} (d : ∀ n, Dec (α n)) : Prop where
  isLocal : ∀ n, Local (d n)
  upTo1 : ∀ n B, ∃ f, AgreeUpTo True B f (d n) (d (n + 1))

section
variable {α : Nat → Type} {d : ∀ n, Dec (α n)} (hd : Deepens d)
include hd

theorem Deepens.upTo (n : Nat) (i : Input) (hi : i.WF) (h : ¬ (d n i).1.Marked) : (j : Nat) →
    ∃ f, d (n + j) i = ((d n i).1.map f, (d n i).2)
  | 0 => ⟨fun v => v, by
    show d n i = _
    rw [Res.map_id']
    rfl⟩
  | j + 1 => by
    obtain ⟨f, ih⟩ := Deepens.upTo n i hi h j
    obtain ⟨g, hg⟩ := hd.upTo1 (n + j) (i.remaining + 1)
    rcases hg i hi (by omega) with ⟨_, h1⟩ | h1
    · rw [ih] at h1
      exact absurd (Res.map_panic_inv h1) h
    · rw [ih] at h1
      refine ⟨fun a => g (f a), (show d (n + j + 1) i = _ from h1).trans ?_⟩
      rw [Res.map_map']

theorem Deepens.more {n : Nat} (h : Blank (d n)) (j : Nat) : Blank (d (n + j)) := by
  obtain ⟨v, hv⟩ := h.at none' none'_wf
  obtain ⟨f, hf⟩ := hd.upTo n none' none'_wf (by rw [hv]; simp) j
  rw [hv] at hf
  exact still_of_at (hd.isLocal _) hf

/-- What needs no octets at some depth needs none at any depth that is enough. -/
theorem Deepens.any {n m : Nat} (h : Blank (d m)) (hn : ¬ (d n none').1.Marked) : Blank (d n) := by
  rcases Nat.le_total m n with hm | hm
  · obtain ⟨j, rfl⟩ := Nat.exists_eq_add_of_le hm
    exact hd.more h j
  · obtain ⟨j, rfl⟩ := Nat.exists_eq_add_of_le hm
    obtain ⟨v, hv⟩ := h.at none' none'_wf
    obtain ⟨f, hf⟩ := hd.upTo n none' none'_wf hn j
    rw [hv] at hf
    generalize hq : d n none' = q at hf hn
    obtain ⟨r', i'⟩ := q
    cases r' with
    | ok w => exact still_of_at (hd.isLocal _) hq
    | err e => cases hf
    | panic p => cases hf
    | ub u => cases hf

/-- Once a depth is enough for the empty input, so is each greater one. -/
theorem Deepens.unmarked {n : Nat} {i : Input} (hi : i.WF) (h : ¬ (d n i).1.Marked) :
    ¬ (d (n + 1) i).1.Marked := by
  obtain ⟨f, hf⟩ := hd.upTo n i hi h 1
  rw [hf]
  exact fun h' => h (Res.map_panic_inv h')

end

theorem RTy.deepens (D : Decls) (r : RTy) : Deepens fun n => (r.close (unroll D n)).decode :=
  ⟨fun _ => Ty.decode_local _, fun n B => ⟨_, r.upTo (unroll_upTo1 D B n)⟩⟩

theorem RFields.deepens (D : Decls) (fs : RFields) (g : DecErr → DecErr) :
    Deepens fun n => (fs.close (unroll D n)).decode g :=
  ⟨fun _ => Fields.decode_local _ _, fun n B => ⟨_, fs.upTo (unroll_upTo1 D B n) g⟩⟩

theorem unroll_deepens (D : Decls) (k : Nat) : Deepens fun n => (unroll D n k).decode :=
  ⟨fun _ => Ty.decode_local _, fun n B => ⟨_, unroll_upTo1 D B n k⟩⟩

/-- The declared types whose decoding never succeeds without octets. -/
def Needs (D : Decls) (k : Nat) : Prop := ∀ n, ¬ Blank (unroll D n k).decode

mutual

/-- A type that does not read something decodes without octets, at some depth. -/
theorem RTy.still_of_not (D : Decls) : (r : RTy) → ¬ Takes (Needs D) r →
    ∃ n, Blank (r.close (unroll D n)).decode
  | .plain t, h => ⟨0, t.decode_blank h⟩
  | .named k, h => Classical.byContradiction fun hn => h fun n hs => hn ⟨n, hs⟩
  | .wrap _ t, h => t.still_of_not D h
  | .array t 0, _ => ⟨0, ⟨[], rfl⟩, Decodes.pure _⟩
  | .array t (m + 1), h => by
    obtain ⟨n, v, hv⟩ := t.still_of_not D fun h' => h ⟨Nat.succ_ne_zero m, h'⟩
    exact ⟨n, _, decItems_blank hv (m + 1) 0⟩
  | .range t, h => by
    obtain ⟨n, v, hv⟩ := t.still_of_not D h
    exact ⟨n, ⟨v, v⟩, hv.bind (hv.map rfl)⟩
  | .rangeInclusive t, h => by
    obtain ⟨n, v, hv⟩ := t.still_of_not D h
    exact ⟨n, ⟨v, v, false⟩, hv.bind (hv.map rfl)⟩
  | .lock _ t, h => by
    obtain ⟨n, v, hv⟩ := t.still_of_not D h
    exact ⟨n, ⟨false, v⟩, hv.map rfl⟩
  | .refCell t, h => by
    obtain ⟨n, v, hv⟩ := t.still_of_not D h
    exact ⟨n, ⟨false, v⟩, hv.map rfl⟩
  | .tuple fs, h => by
    obtain ⟨n, hn⟩ := fs.still_of_not D h
    exact ⟨n, hn id⟩
  | .seq _ _, h => absurd trivial h
  | .hashMap _ _, h => absurd trivial h
  | .option _, h => absurd trivial h
  | .result _ _, h => absurd trivial h
  | .bound _, h => absurd trivial h
  | .sizedSlice _ _, h => absurd trivial h

theorem RFields.still_of_not (D : Decls) : (fs : RFields) → ¬ TakesFields (Needs D) fs →
    ∃ n, ∀ g, Blank ((fs.close (unroll D n)).decode g)
  | .nil, _ => ⟨0, fun _ => ⟨_, Decodes.pure _⟩⟩
  | .cons t fs, h => by
    obtain ⟨n, hn⟩ := t.still_of_not D fun h' => h (.inl h')
    obtain ⟨m, hm⟩ := fs.still_of_not D fun h' => h (.inr h')
    refine ⟨m + n, fun g => ?_⟩
    obtain ⟨v, hv⟩ : Blank (t.close (unroll D (m + n))).decode := Nat.add_comm n m ▸ (t.deepens D).more hn m
    obtain ⟨w, hw⟩ := (fs.deepens D g).more (hm g) n
    exact ⟨(v, w), (hv.mapErr g).bind (hw.map rfl)⟩

end

/-- The declared types that never succeed without octets have a field that reads something. -/
theorem needs_takes (D : Decls) (k : Nat) (hk : Needs D k) : TakesDecl (Needs D) (D k) := by
  cases hd : D k with
  | enum r vs => exact trivial
  | struct fs =>
    refine Classical.byContradiction fun h => ?_
    obtain ⟨n, hn⟩ := fs.still_of_not D h
    refine hk (n + 1) ?_
    show Blank ((D k).close (unroll D n)).decode
    rw [hd]
    exact hn DecErr.toGeneric

mutual

/-- Where a depth is enough for the empty input, one less is enough for each reference before which
nothing is read. -/
theorem RTy.leading_of {D : Decls} {n : Nat} : (r : RTy) →
    ¬ ((r.close (unroll D n)).decode none').1.Marked →
      Leading (Needs D) (fun j => ¬ ((unroll D n j).decode none').1.Marked) r
  | .plain _, _ => trivial
  | .named _, h => h
  | .wrap _ t, h => t.leading_of h
  | .array t 0, _ => .inl rfl
  | .array t (m + 1), h => .inr (t.leading_of (unmarked_mapErr (unmarked_bind h)))
  | .range t, h => t.leading_of (unmarked_bind h)
  | .rangeInclusive t, h => t.leading_of (unmarked_bind h)
  | .lock _ t, h => t.leading_of (unmarked_bind h)
  | .refCell t, h => t.leading_of (unmarked_bind h)
  | .tuple fs, h => fs.leading_of id h
  | .seq _ _, _ => trivial
  | .hashMap _ _, _ => trivial
  | .option _, _ => trivial
  | .result _ _, _ => trivial
  | .bound _, _ => trivial
  | .sizedSlice _ _, _ => trivial

theorem RFields.leading_of {D : Decls} {n : Nat} : (fs : RFields) → (g : DecErr → DecErr) →
    ¬ (((fs.close (unroll D n)).decode g) none').1.Marked →
      LeadingFields (Needs D) (fun j => ¬ ((unroll D n j).decode none').1.Marked) fs
  | .nil, _, _ => trivial
  | .cons t fs, g, h => by
    have ht := unmarked_mapErr (unmarked_bind h)
    refine ⟨t.leading_of ht, ?_⟩
    by_cases hT : Takes (Needs D) t
    · exact .inl hT
    · right
      obtain ⟨m, hm⟩ := t.still_of_not D hT
      obtain ⟨v, hv⟩ := ((t.deepens D).any hm ht).at none' none'_wf
      have hv := mapErr_ok (m := (t.close (unroll D n)).decode) (g := g) hv
      exact fs.leading_of g (unmarked_bind (unmarked_rest
        (m := Dec.mapErr g (t.close (unroll D n)).decode) h hv))

end

theorem leading_of (D : Decls) (n k : Nat) (h : ¬ ((unroll D (n + 1) k).decode none').1.Marked) :
    LeadingDecl (Needs D) (fun j => ¬ ((unroll D n j).decode none').1.Marked) (D k) := by
  have h : ¬ (((D k).close (unroll D n)).decode none').1.Marked := h
  generalize D k = d at h
  cases d with
  | enum r vs => exact trivial
  | struct fs => exact fs.leading_of DecErr.toGeneric h

mutual

theorem RTy.leading_mono {reads p q : Nat → Prop} (h : ∀ k, p k → q k) : (r : RTy) →
    Leading reads p r → Leading reads q r
  | .plain _, h' => trivial
  | .named k, h' => h k h'
  | .wrap _ t, h' => t.leading_mono h h'
  | .array t _, h' => h'.imp id (t.leading_mono h)
  | .range t, h' => t.leading_mono h h'
  | .rangeInclusive t, h' => t.leading_mono h h'
  | .lock _ t, h' => t.leading_mono h h'
  | .refCell t, h' => t.leading_mono h h'
  | .tuple fs, h' => fs.leading_mono h h'
  | .seq _ _, _ => trivial
  | .hashMap _ _, _ => trivial
  | .option _, _ => trivial
  | .result _ _, _ => trivial
  | .bound _, _ => trivial
  | .sizedSlice _ _, _ => trivial

theorem RFields.leading_mono {reads p q : Nat → Prop} (h : ∀ k, p k → q k) : (fs : RFields) →
    LeadingFields reads p fs → LeadingFields reads q fs
  | .nil, _ => trivial
  | .cons t fs, h' => ⟨t.leading_mono h h'.1, h'.2.imp id (fs.leading_mono h)⟩

end

theorem Decl.leading_mono {reads p q : Nat → Prop} (h : ∀ k, p k → q k) (d : Decl)
    (h' : LeadingDecl reads p d) : LeadingDecl reads q d := by
  cases d with
  | enum r vs => exact trivial
  | struct fs => exact fs.leading_mono h h'

/-- What holds of an initial part of the numbers, but not of all, holds up to a first exception. -/
theorem first_exception {P : Nat → Prop} (h : ∀ n, ¬ P n → ¬ P (n + 1)) : (m : Nat) → ¬ P m →
    ∃ r, r ≤ m ∧ ∀ n, P n ↔ n < r
  | 0, h0 => by
    refine ⟨0, Nat.le_refl 0, fun n => ⟨fun hn => ?_, fun hn => absurd hn (Nat.not_lt_zero n)⟩⟩
    exfalso
    induction n with
    | zero => exact h0 hn
    | succ n ih => exact h n (fun h' => ih h') hn
  | m + 1, hm => by
    by_cases h' : P m
    · have up : ∀ j, ¬ P (m + 1 + j) := by
        intro j
        induction j with
        | zero => exact hm
        | succ j ih => exact h _ ih
      have down : ∀ j n, n + j = m → P n := by
        intro j
        induction j with
        | zero => intro n hn; exact (show n = m from hn) ▸ h'
        | succ j ih =>
          intro n hn
          exact Classical.byContradiction fun hP => h n hP (ih (n + 1) (by omega))
      refine ⟨m + 1, Nat.le_refl _, fun n => ⟨fun hn => ?_, fun hn => ?_⟩⟩
      · refine Classical.byContradiction fun hlt => ?_
        obtain ⟨j, rfl⟩ := Nat.exists_eq_add_of_le (Nat.le_of_not_lt hlt)
        exact up j hn
      · exact down (m - n) n (by omega)
    · obtain ⟨r, hr, h1⟩ := first_exception h m h'
      exact ⟨r, by omega, h1⟩

/-- If each declared type ends on the empty input, then nothing leads back to itself without
reading. -/
theorem guarded_of {D : Decls} {N : Nat} (hN : Finitely D N)
    (h : ∀ k, ∃ n, ¬ ((unroll D n k).decode none').1.Marked) :
    ∃ reads rank ranks, Guarded D reads rank ranks := by
  have hr : ∀ k, ∃ r, ∀ n, ((unroll D n k).decode none').1.Marked ↔ n < r := by
    intro k
    obtain ⟨m, hm⟩ := h k
    obtain ⟨r, _, hr⟩ := first_exception
      (P := fun n => ((unroll D n k).decode none').1.Marked)
      (fun n hn => (unroll_deepens D k).unmarked none'_wf hn) m hm
    exact ⟨r, hr⟩
  obtain ⟨rank, hrank⟩ := Classical.axiomOfChoice hr
  have hb : ∀ M, ∃ R, ∀ k, k < M → rank k < R := by
    intro M
    induction M with
    | zero => exact ⟨0, fun k hk => absurd hk (Nat.not_lt_zero k)⟩
    | succ M ih =>
      obtain ⟨R, hR⟩ := ih
      refine ⟨R + rank M + 1, fun k hk => ?_⟩
      by_cases hkM : k = M
      · subst hkM; omega
      · have := hR k (by omega)
        omega
  obtain ⟨R, hR⟩ := hb N
  refine ⟨Needs D, rank, R + 2, fun k => ⟨needs_takes D k, ?_, ?_⟩⟩
  · by_cases hk : k < N
    · have := hR k hk
      omega
    · have h1 : ¬ ((unroll D 1 k).decode none').1.Marked := by
        show ¬ (((D k).close (unroll D 0)).decode none').1.Marked
        rw [hN k (by omega)]
        intro h'
        cases h'
      have := mt (hrank k 1).mpr h1
      omega
  · have h0 : 0 < rank k := (hrank k 0).mp ((D k).bottom_decode none')
    have h1 : ¬ ((unroll D (rank k - 1 + 1) k).decode none').1.Marked := by
      rw [Nat.sub_add_cancel h0]
      exact mt (hrank k (rank k)).mp (Nat.lt_irrefl _)
    refine (D k).leading_mono (fun j hj => ?_) (leading_of D (rank k - 1) k h1)
    have := mt (hrank j (rank k - 1)).mpr hj
    omega

mutual

theorem RTy.no_infallible {σ : Nat → Ty} (hσ : ∀ k, Everywhere (· ≠ .infallible) (σ k)) :
    (r : RTy) → Everywhere (· ≠ .infallible) (r.close blank) →
      Everywhere (· ≠ .infallible) (r.close σ)
  | .plain _, h => h
  | .named k, _ => hσ k
  | .wrap _ t, h => ⟨by simp, t.no_infallible hσ h.2⟩
  | .array t _, h => ⟨by simp, t.no_infallible hσ h.2⟩
  | .seq _ t, h => ⟨by simp, t.no_infallible hσ h.2⟩
  | .hashMap _ t, h => ⟨by simp, h.2.1, t.no_infallible hσ h.2.2⟩
  | .option t, h => ⟨by simp, t.no_infallible hσ h.2⟩
  | .result t e, h => ⟨by simp, t.no_infallible hσ h.2.1, e.no_infallible hσ h.2.2⟩
  | .bound t, h => ⟨by simp, t.no_infallible hσ h.2⟩
  | .range t, h => ⟨by simp, t.no_infallible hσ h.2⟩
  | .rangeInclusive t, h => ⟨by simp, t.no_infallible hσ h.2⟩
  | .lock _ t, h => ⟨by simp, t.no_infallible hσ h.2⟩
  | .refCell t, h => ⟨by simp, t.no_infallible hσ h.2⟩
  | .sizedSlice t _, h => ⟨by simp, t.no_infallible hσ h.2⟩
  | .tuple fs, h => ⟨by simp, fs.no_infallible hσ h.2⟩

theorem RFields.no_infallible {σ : Nat → Ty} (hσ : ∀ k, Everywhere (· ≠ .infallible) (σ k)) :
    (fs : RFields) → EverywhereFields (· ≠ .infallible) (fs.close blank) →
      EverywhereFields (· ≠ .infallible) (fs.close σ)
  | .nil, h => h
  | .cons t fs, h => ⟨t.no_infallible hσ h.1, fs.no_infallible hσ h.2⟩

end

theorem RVariants.no_infallible {σ : Nat → Ty} (hσ : ∀ k, Everywhere (· ≠ .infallible) (σ k)) :
    (vs : RVariants) → EverywhereVariants (· ≠ .infallible) (vs.close blank) →
      EverywhereVariants (· ≠ .infallible) (vs.close σ)
  | .nil, h => h
  | .cons _ fs vs, h => ⟨fs.no_infallible hσ h.1, vs.no_infallible hσ h.2⟩

theorem Decl.no_infallible {σ : Nat → Ty} (hσ : ∀ k, Everywhere (· ≠ .infallible) (σ k)) :
    (d : Decl) → Everywhere (· ≠ .infallible) (d.close blank) →
      Everywhere (· ≠ .infallible) (d.close σ)
  | .struct fs, h => ⟨by simp, fs.no_infallible hσ h.2⟩
  | .enum _ vs, h => ⟨by simp, vs.no_infallible hσ h.2⟩

theorem unrollWith_no_infallible {D : Decls} (hD : NoInfallible D) : (n k : Nat) →
    Everywhere (· ≠ .infallible) (unrollWith blank D n k)
  | 0, _ => by intro h; cases h
  | n + 1, k => (D k).no_infallible (unrollWith_no_infallible hD n) (hD k)

mutual

theorem Ty.allows : (t : Ty) → Everywhere (· ≠ .infallible) t →
    Everywhere (Allows (· ≠ .infallible) fun _ => True) t
  | .infallible, h => absurd rfl h
  | .num _, _ | .bool, _ | .char, _ | .usize, _ | .isize, _ | .nonZero _, _ | .unit _, _
  | .systemTime _, _ | .ipv4, _ | .ipv6, _ | .ipAddr, _ | .socketAddrV4, _
  | .socketAddrV6, _ | .socketAddr, _ | .str _, _ | .cStr _, _ | .sizedStr _, _ => trivial
  | .duration, _ => by intro h; cases h
  | .wrap _ t, h => ⟨trivial, t.allows h.2⟩
  | .array t _, h => ⟨trivial, t.allows h.2⟩
  | .seq _ t, h => ⟨trivial, t.allows h.2⟩
  | .hashMap k v, h => ⟨trivial, k.allows h.2.1, v.allows h.2.2⟩
  | .hashSet k, h => ⟨trivial, k.allows h.2⟩
  | .option t, h => ⟨trivial, t.allows h.2⟩
  | .result t e, h => ⟨trivial, t.allows h.2.1, e.allows h.2.2⟩
  | .bound t, h => ⟨trivial, t.allows h.2⟩
  | .range t, h => ⟨trivial, t.allows h.2⟩
  | .rangeInclusive t, h => ⟨trivial, t.allows h.2⟩
  | .lock _ t, h => ⟨trivial, t.allows h.2⟩
  | .refCell t, h => ⟨trivial, t.allows h.2⟩
  | .sizedSlice t _, h => ⟨trivial, t.allows h.2⟩
  | .tuple fs, h => ⟨trivial, fs.allows h.2⟩
  | .struct fs, h => ⟨trivial, fs.allows h.2⟩
  | .enum _ vs, h => ⟨trivial, vs.allows h.2⟩

theorem Fields.allows : (fs : Fields) → EverywhereFields (· ≠ .infallible) fs →
    EverywhereFields (Allows (· ≠ .infallible) fun _ => True) fs
  | .nil, _ => trivial
  | .cons t fs, h => ⟨t.allows h.1, fs.allows h.2⟩

theorem Variants.allows : (vs : Variants) → EverywhereVariants (· ≠ .infallible) vs →
    EverywhereVariants (Allows (· ≠ .infallible) fun _ => True) vs
  | .nil, _ => trivial
  | .cons _ fs vs, h => ⟨fs.allows h.1, vs.allows h.2⟩

end

theorem Ty.unmarked (t : Ty) (h : Everywhere (· ≠ .infallible) t) (i : Input) :
    ¬ (t.decode i).1.Marked := by
  intro hm
  have := Ty.decode_ends (Pn := (· ≠ .infallible)) (U := fun _ => True) (by intro h; cases h) t
    (t.allows h) i
  rw [hm] at this
  exact this rfl

/-- Whatever is in place of the marked types, the outcome is the same unless the mark is hit. -/
theorem embed_upTo (b : Nat → Ty) (D : Decls) (B : Nat) : (n k : Nat) →
    AgreeUpTo True B (embed b D n k) (unroll D n k).decode (unrollWith b D n k).decode
  | 0, k => fun i _ _ => .inl ⟨trivial, (D k).bottom_decode i⟩
  | n + 1, k => (D k).upTo (embed_upTo b D B n)

/-- A depth is enough if and only if the mark is not hit. -/
theorem suffices_iff {D : Decls} (hD : NoInfallible D) (n k : Nat) (i : Input) (hi : i.WF) :
    DepthSuffices D n k i ↔ ¬ ((unroll D n k).decode i).1.Marked := by
  constructor
  · intro h hm
    have hb := h blank
    refine Ty.unmarked _ (unrollWith_no_infallible hD n k) i ?_
    rw [hb, hm]
    rfl
  · intro h b
    rcases embed_upTo b D (i.remaining + 1) n k i hi (by omega) with ⟨_, h1⟩ | h1
    · exact absurd h1 h
    · exact h1

end Oct
