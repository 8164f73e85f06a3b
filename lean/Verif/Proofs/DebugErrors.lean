import Verif.Model.DebugErrors
import Verif.Spec.DebugErrors
import Verif.Proofs.ErrorMessages
/-
Helper lemmas about the derived `Debug` of errors: text without blanks is read in one way only.
-/
namespace Oct
open Spec

namespace Dbg

/-- Characters of names. -/
def word (c : Char) : Bool := c.isAlpha || ['0', '1', '2', '3', '4', '5', '6', '7', '8', '9', '_'].contains c

/-- Names begin with a letter. -/
def goodName (s : String) : Bool :=
  match s.toList with
  | [] => false
  | c :: l => c.isAlpha && l.all word

mutual

def Named : Shown → Prop
  | .num _ => True
  | .unit n => goodName n = true
  | .tuple n a => (n = "" ∨ goodName n = true) ∧ NamedArgs a
  | .struct n f => goodName n = true ∧ NamedFields f

def NamedArgs : ShownArgs → Prop
  | .last x => Named x
  | .cons x a => Named x ∧ NamedArgs a

def NamedFields : ShownFields → Prop
  | .last n x => goodName n = true ∧ Named x
  | .cons n x f => goodName n = true ∧ Named x ∧ NamedFields f

end

/-- What stands behind the last field. -/
def tail (t : Bool) : List Char := if t then [','] else []

mutual

/-- The text without blanks; `t` tells whether a comma is behind the last field. -/
def flat (t : Bool) : Shown → List Char
  | .num i => showInt i
  | .unit n => n.toList
  | .tuple n a => n.toList ++ '(' :: (flatArgs t a ++ [')'])
  | .struct n f => n.toList ++ '{' :: (flatFields t f ++ ['}'])

def flatArgs (t : Bool) : ShownArgs → List Char
  | .last x => flat t x ++ tail t
  | .cons x a => flat t x ++ ',' :: flatArgs t a

def flatFields (t : Bool) : ShownFields → List Char
  | .last n x => n.toList ++ ':' :: (flat t x ++ tail t)
  | .cons n x f => n.toList ++ ':' :: (flat t x ++ ',' :: flatFields t f)

end

theorem good_cons {s : String} (h : goodName s = true) : ∃ c l, s.toList = c :: l ∧ c.isAlpha = true ∧
    ∀ d ∈ c :: l, word d = true := by
  unfold goodName at h
  split at h
  · cases h
  · next c l e =>
    simp only [Bool.and_eq_true, List.all_eq_true] at h
    refine ⟨c, l, e, h.1, fun d hd => ?_⟩
    rcases List.mem_cons.mp hd with rfl | hd
    · unfold word; rw [h.1]; rfl
    · exact h.2 d hd

theorem good_word {s : String} (h : s = "" ∨ goodName s = true) : ∀ d ∈ s.toList, word d = true := by
  rcases h with rfl | h
  · intro d hd
    cases hd
  · obtain ⟨c, l, e, -, hw⟩ := good_cons h
    rw [e]; exact hw

theorem name_cancel {n m : String} {x y : Char} {r s : List Char} (hn : n = "" ∨ goodName n = true)
    (hm : m = "" ∨ goodName m = true) (hx : word x = false) (hy : word y = false)
    (h : n.toList ++ x :: r = m.toList ++ y :: s) : n = m ∧ x = y ∧ r = s := by
  obtain ⟨h1, h2⟩ := run_cancel (P := fun c => word c = true) (good_word hn) (good_word hm)
    (by simp [hx]) (by simp [hy]) h
  exact ⟨String.toList_injective h1, h2⟩

/-- What may follow a value. -/
def Ends (r : List Char) : Prop := ∃ c t, r = c :: t ∧ (c = ',' ∨ c = ')' ∨ c = '}')

theorem ends_word {c : Char} (h : c = ',' ∨ c = ')' ∨ c = '}') : word c = false := by
  rcases h with rfl | rfl | rfl <;> decide

theorem ends_tail (t : Bool) {c : Char} (h : c = ')' ∨ c = '}') (r : List Char) :
    Ends (tail t ++ c :: r) := by
  cases t
  · exact ⟨c, r, rfl, .inr h⟩
  · exact ⟨',', c :: r, rfl, .inl rfl⟩

/-- The characters of numbers. -/
def digit (c : Char) : Bool := ['0', '1', '2', '3', '4', '5', '6', '7', '8', '9'].contains c

theorem digitChar_digit {d : Nat} (h : d < 10) : digit (digitChar d) = true := by
  revert h; revert d
  decide

theorem numeralAux_digit : ∀ (fuel n : Nat), ∀ c ∈ numeralAux 10 fuel n, digit c = true
  | 0, _, _, h => by cases h
  | fuel + 1, n, c, h => by
    unfold numeralAux at h
    split at h
    · next hn =>
      rw [List.mem_singleton.mp h]
      exact digitChar_digit hn
    · rcases List.mem_append.mp h with h | h
      · exact numeralAux_digit fuel _ c h
      · rw [List.mem_singleton.mp h]
        exact digitChar_digit (Nat.mod_lt _ (by decide))

theorem numeral_cons (n : Nat) : ∃ c l, numeral 10 n = c :: l ∧ ∀ d ∈ c :: l, digit d = true := by
  have hd := numeralAux_digit (n + 1) n
  cases h : numeralAux 10 (n + 1) n with
  | nil =>
    unfold numeralAux at h
    split at h <;> simp at h
  | cons c l => exact ⟨c, l, h, by rw [← h]; exact hd⟩

theorem showInt_cons (i : Int) : ∃ c l, showInt i = c :: l ∧ (c = '-' ∨ digit c = true) ∧
    ∀ d ∈ l, digit d = true := by
  obtain ⟨c, l, e, h⟩ := numeral_cons i.natAbs
  unfold showInt
  split
  · exact ⟨'-', _, rfl, .inl rfl, by rw [e]; exact h⟩
  · exact ⟨c, l, e, .inr (h c (by simp)), fun d hd => h d (by simp [hd])⟩

theorem digit_alpha {c : Char} (h : c = '-' ∨ digit c = true) : c.isAlpha = false ∧ c ≠ '(' ∧ c ≠ ')' := by
  rcases h with rfl | h
  · decide
  · have : ∀ c ∈ ['0', '1', '2', '3', '4', '5', '6', '7', '8', '9'], c.isAlpha = false ∧ c ≠ '(' ∧ c ≠ ')' := by
      decide
    exact this c (by simpa [digit, List.contains_iff_mem] using h)

/-- A text that begins with a letter or with a parenthesis is no number. -/
theorem num_ne {i : Int} {c : Char} {r l : List Char} (hc : c.isAlpha = true ∨ c = '(') :
    showInt i ++ r ≠ c :: l := by
  intro h
  obtain ⟨d, l', e, hd, -⟩ := showInt_cons i
  rw [e] at h
  injection h with h1 h2
  subst h1
  have := digit_alpha hd
  rcases hc with hc | hc
  · rw [this.1] at hc; cases hc
  · exact this.2.1 hc

theorem tuple_head {n : String} (h : n = "" ∨ goodName n = true) (r : List Char) :
    ∃ c l, n.toList ++ '(' :: r = c :: l ∧ (c.isAlpha = true ∨ c = '(') := by
  rcases h with rfl | h
  · exact ⟨'(', r, rfl, .inr rfl⟩
  · obtain ⟨c, l, e, hc, -⟩ := good_cons h
    exact ⟨c, _, by rw [e]; rfl, .inl hc⟩

theorem name_head {n : String} (h : goodName n = true) (r : List Char) :
    ∃ c l, n.toList ++ r = c :: l ∧ c.isAlpha = true := by
  obtain ⟨c, l, e, hc, -⟩ := good_cons h
  exact ⟨c, _, by rw [e]; rfl, hc⟩

theorem flat_head (t : Bool) : ∀ {x : Shown}, Named x → ∃ c l, flat t x = c :: l ∧ c ≠ ')'
  | .num i, _ => by
    obtain ⟨c, l, e, hc, -⟩ := showInt_cons i
    exact ⟨c, l, by rw [flat, e], (digit_alpha hc).2.2⟩
  | .unit n, h => by
    obtain ⟨c, l, e, hc⟩ := name_head (n := n) h []
    refine ⟨c, l, by rw [flat, ← e, List.append_nil], ?_⟩
    rintro rfl; revert hc; decide
  | .tuple n a, h => by
    obtain ⟨c, l, e, hc⟩ := tuple_head h.1 (flatArgs t a ++ [')'])
    refine ⟨c, l, by rw [flat, e], ?_⟩
    rintro rfl; revert hc; decide
  | .struct n f, h => by
    obtain ⟨c, l, e, hc⟩ := name_head h.1 ('{' :: (flatFields t f ++ ['}']))
    refine ⟨c, l, by rw [flat, e], ?_⟩
    rintro rfl; revert hc; decide

theorem flatArgs_head (t : Bool) {a : ShownArgs} (h : NamedArgs a) : ∃ c l, flatArgs t a = c :: l ∧ c ≠ ')' := by
  cases a with
  | last x =>
    obtain ⟨c, l, e, hc⟩ := flat_head t (x := x) h
    exact ⟨c, _, by rw [flatArgs, e]; rfl, hc⟩
  | cons x a =>
    obtain ⟨c, l, e, hc⟩ := flat_head t (x := x) h.1
    exact ⟨c, _, by rw [flatArgs, e]; rfl, hc⟩

theorem flatFields_head (t : Bool) {f : ShownFields} (h : NamedFields f) :
    ∃ c l, flatFields t f = c :: l ∧ c ≠ '}' := by
  have ne : ∀ {c : Char}, c.isAlpha = true → c ≠ '}' := by
    rintro c hc rfl; revert hc; decide
  cases f with
  | last n x =>
    obtain ⟨c, l, e, hc⟩ := name_head h.1 (':' :: (flat t x ++ tail t))
    exact ⟨c, l, by rw [flatFields, e], ne hc⟩
  | cons n x f =>
    obtain ⟨c, l, e, hc⟩ := name_head h.1 (':' :: (flat t x ++ ',' :: flatFields t f))
    exact ⟨c, l, by rw [flatFields, e], ne hc⟩

theorem ends_digit {c : Char} (h : c = ',' ∨ c = ')' ∨ c = '}') : ¬ IsDigit c ∧ c ≠ '-' := by
  rcases h with rfl | rfl | rfl <;> decide

theorem tail_comma (t : Bool) {c : Char} {r l : List Char} (hc : c ≠ ',')
    (h : tail t ++ c :: r = ',' :: l) : c :: r = l := by
  cases t
  · injection h with h1 _
    exact absurd h1 hc
  · injection h

theorem field_last (t : Bool) (n : String) (x : Shown) (z : List Char) :
    flatFields t (.last n x) ++ z = n.toList ++ ':' :: (flat t x ++ (tail t ++ z)) := by
  rw [flatFields, List.append_assoc, List.cons_append, List.append_assoc]

theorem field_cons (t : Bool) (n : String) (x : Shown) (f : ShownFields) (z : List Char) :
    flatFields t (.cons n x f) ++ z = n.toList ++ ':' :: (flat t x ++ ',' :: (flatFields t f ++ z)) := by
  rw [flatFields, List.append_assoc, List.cons_append, List.append_assoc, List.cons_append]

mutual

theorem flat_cancel (t : Bool) : ∀ {a b : Shown} {r s : List Char}, Named a → Named b → Ends r → Ends s →
    flat t a ++ r = flat t b ++ s → a = b ∧ r = s
  | .num i, b, r, s, _, hb, hr, hs, h => by
    cases b with
    | num j =>
      obtain ⟨c, r, rfl, hc⟩ := hr
      obtain ⟨d, s, rfl, hd⟩ := hs
      rw [flat, flat] at h
      obtain ⟨h1, h2⟩ := showInt_cancel (ends_digit hc).1 (ends_digit hd).1 h (ends_digit hc).2
        (ends_digit hd).2
      subst h1
      exact ⟨rfl, List.append_cancel_left h⟩
    | unit n =>
      obtain ⟨c, l, e, hc⟩ := name_head (n := n) hb s
      rw [flat, flat, e] at h
      exact absurd h (num_ne (.inl hc))
    | tuple n a =>
      obtain ⟨c, l, e, hc⟩ := tuple_head hb.1 (flatArgs t a ++ [')'] ++ s)
      rw [flat, flat, List.append_assoc _ _ s, List.cons_append, e] at h
      exact absurd h (num_ne hc)
    | struct n f =>
      obtain ⟨c, l, e, hc⟩ := name_head hb.1 ('{' :: (flatFields t f ++ ['}'] ++ s))
      rw [flat, flat, List.append_assoc _ _ s, List.cons_append, e] at h
      exact absurd h (num_ne (.inl hc))
  | .unit n, b, r, s, ha, hb, hr, hs, h => by
    obtain ⟨c, r, rfl, hc⟩ := hr
    cases b with
    | num j =>
      obtain ⟨d, l, e, hd⟩ := name_head (n := n) ha (c :: r)
      rw [flat, flat, e] at h
      exact absurd h.symm (num_ne (.inl hd))
    | unit m =>
      obtain ⟨d, s, rfl, hd⟩ := hs
      rw [flat, flat] at h
      obtain ⟨h1, h2, h3⟩ := name_cancel (.inr ha) (.inr hb) (ends_word hc) (ends_word hd) h
      exact ⟨by rw [h1], by rw [h2, h3]⟩
    | tuple m a =>
      rw [flat, flat, List.append_assoc _ _ s, List.cons_append] at h
      obtain ⟨-, h2, -⟩ := name_cancel (.inr ha) hb.1 (ends_word hc) (by decide) h
      subst h2; exact absurd hc (by decide)
    | struct m f =>
      rw [flat, flat, List.append_assoc _ _ s, List.cons_append] at h
      obtain ⟨-, h2, -⟩ := name_cancel (.inr ha) (.inr hb.1) (ends_word hc) (by decide) h
      subst h2; exact absurd hc (by decide)
  | .tuple n a, b, r, s, ha, hb, hr, hs, h => by
    rw [flat, List.append_assoc _ _ r, List.cons_append] at h
    cases b with
    | num j =>
      obtain ⟨d, l, e, hd⟩ := tuple_head ha.1 (flatArgs t a ++ [')'] ++ r)
      rw [flat, e] at h
      exact absurd h.symm (num_ne hd)
    | unit m =>
      obtain ⟨d, s, rfl, hd⟩ := hs
      rw [flat] at h
      obtain ⟨-, h2, -⟩ := name_cancel ha.1 (.inr hb) (by decide) (ends_word hd) h
      subst h2; exact absurd hd (by decide)
    | tuple m b =>
      rw [flat, List.append_assoc _ _ s, List.cons_append] at h
      obtain ⟨h1, -, h3⟩ := name_cancel ha.1 hb.1 (by decide) (by decide) h
      rw [List.append_assoc, List.append_assoc] at h3
      obtain ⟨h4, h5⟩ := flatArgs_cancel t ha.2 hb.2 h3
      exact ⟨by rw [h1, h4], h5⟩
    | struct m f =>
      rw [flat, List.append_assoc _ _ s, List.cons_append] at h
      obtain ⟨-, h2, -⟩ := name_cancel ha.1 (.inr hb.1) (by decide) (by decide) h
      exact absurd h2 (by decide)
  | .struct n f, b, r, s, ha, hb, hr, hs, h => by
    rw [flat, List.append_assoc _ _ r, List.cons_append] at h
    cases b with
    | num j =>
      obtain ⟨d, l, e, hd⟩ := name_head ha.1 ('{' :: (flatFields t f ++ ['}'] ++ r))
      rw [flat, e] at h
      exact absurd h.symm (num_ne (.inl hd))
    | unit m =>
      obtain ⟨d, s, rfl, hd⟩ := hs
      rw [flat] at h
      obtain ⟨-, h2, -⟩ := name_cancel (.inr ha.1) (.inr hb) (by decide) (ends_word hd) h
      subst h2; exact absurd hd (by decide)
    | tuple m b =>
      rw [flat, List.append_assoc _ _ s, List.cons_append] at h
      obtain ⟨-, h2, -⟩ := name_cancel (.inr ha.1) hb.1 (by decide) (by decide) h
      exact absurd h2 (by decide)
    | struct m g =>
      rw [flat, List.append_assoc _ _ s, List.cons_append] at h
      obtain ⟨h1, -, h3⟩ := name_cancel (.inr ha.1) (.inr hb.1) (by decide) (by decide) h
      rw [List.append_assoc, List.append_assoc] at h3
      obtain ⟨h4, h5⟩ := flatFields_cancel t ha.2 hb.2 h3
      exact ⟨by rw [h1, h4], h5⟩

theorem flatArgs_cancel (t : Bool) : ∀ {a b : ShownArgs} {r s : List Char}, NamedArgs a → NamedArgs b →
    flatArgs t a ++ ([')'] ++ r) = flatArgs t b ++ ([')'] ++ s) → a = b ∧ r = s
  | .last x, b, r, s, ha, hb, h => by
    rw [flatArgs, List.append_assoc] at h
    cases b with
    | last y =>
      rw [flatArgs, List.append_assoc] at h
      obtain ⟨h1, h2⟩ := flat_cancel t ha hb (ends_tail t (.inl rfl) r) (ends_tail t (.inl rfl) s) h
      have h3 := List.append_cancel_left h2
      injection h3 with _ h3
      exact ⟨by rw [h1], h3⟩
    | cons y b =>
      rw [flatArgs, List.append_assoc, List.cons_append] at h
      obtain ⟨-, h2⟩ := flat_cancel t ha hb.1 (ends_tail t (.inl rfl) r) ⟨_, _, rfl, .inl rfl⟩ h
      obtain ⟨c, l, e, hc⟩ := flatArgs_head t hb.2
      have h3 := tail_comma t (by decide) h2
      rw [e] at h3
      injection h3 with h3 _
      exact absurd h3.symm hc
  | .cons x a, b, r, s, ha, hb, h => by
    rw [flatArgs, List.append_assoc, List.cons_append] at h
    cases b with
    | last y =>
      rw [flatArgs, List.append_assoc] at h
      obtain ⟨-, h2⟩ := flat_cancel t ha.1 hb ⟨_, _, rfl, .inl rfl⟩ (ends_tail t (.inl rfl) s) h
      obtain ⟨c, l, e, hc⟩ := flatArgs_head t ha.2
      have h3 := tail_comma t (by decide) h2.symm
      rw [e] at h3
      injection h3 with h3 _
      exact absurd h3.symm hc
    | cons y b =>
      rw [flatArgs, List.append_assoc, List.cons_append] at h
      obtain ⟨h1, h2⟩ := flat_cancel t ha.1 hb.1 ⟨_, _, rfl, .inl rfl⟩ ⟨_, _, rfl, .inl rfl⟩ h
      injection h2 with _ h2
      obtain ⟨h3, h4⟩ := flatArgs_cancel t ha.2 hb.2 h2
      exact ⟨by rw [h1, h3], h4⟩

theorem flatFields_cancel (t : Bool) : ∀ {a b : ShownFields} {r s : List Char}, NamedFields a → NamedFields b →
    flatFields t a ++ (['}'] ++ r) = flatFields t b ++ (['}'] ++ s) → a = b ∧ r = s
  | .last n x, b, r, s, ha, hb, h => by
    rw [field_last] at h
    cases b with
    | last m y =>
      rw [field_last] at h
      obtain ⟨h0, -, h⟩ := name_cancel (.inr ha.1) (.inr hb.1) (by decide) (by decide) h
      obtain ⟨h1, h2⟩ := flat_cancel t ha.2 hb.2 (ends_tail t (.inr rfl) r) (ends_tail t (.inr rfl) s) h
      have h3 := List.append_cancel_left h2
      injection h3 with _ h3
      exact ⟨by rw [h0, h1], h3⟩
    | cons m y b =>
      rw [field_cons] at h
      obtain ⟨h0, -, h⟩ := name_cancel (.inr ha.1) (.inr hb.1) (by decide) (by decide) h
      obtain ⟨-, h2⟩ := flat_cancel t ha.2 hb.2.1 (ends_tail t (.inr rfl) r) ⟨_, _, rfl, .inl rfl⟩ h
      obtain ⟨c, l, e, hc⟩ := flatFields_head t hb.2.2
      have h3 := tail_comma t (by decide) h2
      rw [e] at h3
      injection h3 with h3 _
      exact absurd h3.symm hc
  | .cons n x a, b, r, s, ha, hb, h => by
    rw [field_cons] at h
    cases b with
    | last m y =>
      rw [field_last] at h
      obtain ⟨h0, -, h⟩ := name_cancel (.inr ha.1) (.inr hb.1) (by decide) (by decide) h
      obtain ⟨-, h2⟩ := flat_cancel t ha.2.1 hb.2 ⟨_, _, rfl, .inl rfl⟩ (ends_tail t (.inr rfl) s) h
      obtain ⟨c, l, e, hc⟩ := flatFields_head t ha.2.2
      have h3 := tail_comma t (by decide) h2.symm
      rw [e] at h3
      injection h3 with h3 _
      exact absurd h3.symm hc
    | cons m y b =>
      rw [field_cons] at h
      obtain ⟨h0, -, h⟩ := name_cancel (.inr ha.1) (.inr hb.1) (by decide) (by decide) h
      obtain ⟨h1, h2⟩ := flat_cancel t ha.2.1 hb.2.1 ⟨_, _, rfl, .inl rfl⟩ ⟨_, _, rfl, .inl rfl⟩ h
      injection h2 with _ h2
      obtain ⟨h3, h4⟩ := flatFields_cancel t ha.2.2 hb.2.2 h2
      exact ⟨by rw [h0, h1, h3], h4⟩

end

theorem flat_inj (t : Bool) {a b : Shown} (ha : Named a) (hb : Named b) (h : flat t a = flat t b) : a = b :=
  (flat_cancel t ha hb (r := [',']) (s := [',']) ⟨_, _, rfl, .inl rfl⟩ ⟨_, _, rfl, .inl rfl⟩ (by rw [h])).1

/-! ### Blanks -/

/-- The text without blanks and line breaks. -/
def bare (l : List Char) : List Char := l.filter (fun c => c != ' ' && c != '\n')

theorem bare_append (a b : List Char) : bare (a ++ b) = bare a ++ bare b := List.filter_append ..

theorem bare_cons {c : Char} (l : List Char) (h : (c != ' ' && c != '\n') = true) : bare (c :: l) = c :: bare l :=
  List.filter_cons_of_pos (p := fun c => c != ' ' && c != '\n') h

theorem bare_blank (l : List Char) : bare (' ' :: l) = bare l := rfl

theorem bare_line (l : List Char) : bare ('\n' :: l) = bare l := rfl

theorem bare_self {l : List Char} (h : ∀ c ∈ l, (c != ' ' && c != '\n') = true) : bare l = l :=
  List.filter_eq_self.mpr h

theorem bare_indented : ∀ (l : List Char) (fresh : Bool), bare (indented fresh l) = bare l
  | [], _ => rfl
  | c :: l, fresh => by
    have h1 : bare (c :: l) = bare [c] ++ bare l := bare_append [c] l
    have h2 : bare (c :: indented (c == '\n') l) = bare [c] ++ bare (indented (c == '\n') l) :=
      bare_append [c] _
    have h3 : bare (if fresh then [' ', ' ', ' ', ' '] else []) = [] := by cases fresh <;> rfl
    rw [indented, bare_append, h3, h2, bare_indented l, ← h1]
    rfl

theorem bare_name {n : String} (h : n = "" ∨ goodName n = true) : bare n.toList = n.toList := by
  refine bare_self fun c hc => ?_
  have := good_word h c hc
  by_cases h1 : c = ' '
  · subst h1; revert this; decide
  by_cases h2 : c = '\n'
  · subst h2; revert this; decide
  simp [h1, h2]

theorem digit_bare {c : Char} (h : c = '-' ∨ digit c = true) : (c != ' ' && c != '\n') = true := by
  rcases h with rfl | h
  · decide
  · have : ∀ c ∈ ['0', '1', '2', '3', '4', '5', '6', '7', '8', '9'], (c != ' ' && c != '\n') = true := by
      decide
    exact this c (by simpa [digit, List.contains_iff_mem] using h)

theorem bare_int (i : Int) : bare (showInt i) = showInt i := by
  obtain ⟨c, l, e, hc, hl⟩ := showInt_cons i
  rw [e]
  refine bare_self fun d hd => ?_
  rcases List.mem_cons.mp hd with rfl | hd
  · exact digit_bare hc
  · exact digit_bare (.inr (hl d hd))

theorem bare_one {c : Char} (h : (c != ' ' && c != '\n') = true) : bare [c] = [c] := bare_cons [] h

mutual

theorem bare_plain : ∀ {x : Shown}, Named x → bare x.plain = flat false x
  | .num i, _ => bare_int i
  | .unit n, h => bare_name (.inr h)
  | .tuple n a, h => by
    rw [Shown.plain, flat, bare_append, bare_name h.1, bare_cons _ (by decide), bare_append, bare_plainArgs h.2]
    rfl
  | .struct n f, h => by
    rw [Shown.plain, flat, bare_append, bare_name (.inr h.1), bare_blank, bare_cons _ (by decide), bare_blank,
      bare_append, bare_plainFields h.2]
    rfl

theorem bare_plainArgs : ∀ {a : ShownArgs}, NamedArgs a → bare a.plain = flatArgs false a
  | .last x, h => by
    rw [ShownArgs.plain, flatArgs, bare_plain h]; exact (List.append_nil _).symm
  | .cons x a, h => by
    rw [ShownArgs.plain, flatArgs, bare_append, bare_plain h.1, bare_cons _ (by decide), bare_blank,
      bare_plainArgs h.2]

theorem bare_plainFields : ∀ {f : ShownFields}, NamedFields f → bare f.plain = flatFields false f
  | .last n x, h => by
    rw [ShownFields.plain, flatFields, bare_append, bare_name (.inr h.1), bare_cons _ (by decide), bare_blank,
      bare_plain h.2]
    exact congrArg (fun z => n.toList ++ ':' :: z) (List.append_nil _).symm
  | .cons n x f, h => by
    rw [ShownFields.plain, flatFields, bare_append, bare_name (.inr h.1), bare_cons _ (by decide), bare_blank,
      bare_append, bare_plain h.2.1, bare_cons _ (by decide), bare_blank, bare_plainFields h.2.2]

end

mutual

theorem bare_pretty : ∀ {x : Shown}, Named x → bare x.pretty = flat true x
  | .num i, _ => bare_int i
  | .unit n, h => bare_name (.inr h)
  | .tuple n a, h => by
    rw [Shown.pretty, flat, bare_append, bare_name h.1, bare_cons _ (by decide), bare_line, bare_append,
      bare_prettyArgs h.2]
    rfl
  | .struct n f, h => by
    rw [Shown.pretty, flat, bare_append, bare_name (.inr h.1), bare_blank, bare_cons _ (by decide), bare_line,
      bare_append, bare_prettyFields h.2]
    rfl

theorem bare_prettyArgs : ∀ {a : ShownArgs}, NamedArgs a → bare a.pretty = flatArgs true a
  | .last x, h => by
    rw [ShownArgs.pretty, flatArgs, bare_indented, bare_append, bare_pretty h]; rfl
  | .cons x a, h => by
    rw [ShownArgs.pretty, flatArgs, bare_append, bare_indented, bare_append, bare_pretty h.1,
      bare_prettyArgs h.2, List.append_assoc]
    rfl

theorem bare_prettyFields : ∀ {f : ShownFields}, NamedFields f → bare f.pretty = flatFields true f
  | .last n x, h => by
    rw [ShownFields.pretty, flatFields, bare_indented, bare_append, bare_name (.inr h.1),
      bare_cons _ (by decide), bare_blank, bare_append, bare_pretty h.2]
    rfl
  | .cons n x f, h => by
    rw [ShownFields.pretty, flatFields, bare_append, bare_indented, bare_append, bare_name (.inr h.1),
      bare_cons _ (by decide), bare_blank, bare_append, bare_pretty h.2.1, bare_prettyFields h.2.2,
      List.append_assoc, List.cons_append, List.append_assoc]
    rfl

end

theorem plain_inj {a b : Shown} (ha : Named a) (hb : Named b) (h : a.plain = b.plain) : a = b :=
  flat_inj false ha hb (by rw [← bare_plain ha, ← bare_plain hb, h])

theorem pretty_inj {a b : Shown} (ha : Named a) (hb : Named b) (h : a.pretty = b.pretty) : a = b :=
  flat_inj true ha hb (by rw [← bare_pretty ha, ← bare_pretty hb, h])

/-! ### The errors -/

theorem named_wrap {n : String} {x : Shown} (h : goodName n = true) (hx : Named x) : Named (.wrap n x) :=
  ⟨.inr h, hx⟩

theorem named_struct1 {n a : String} {x : Shown} (h : goodName n = true) (ha : goodName a = true)
    (hx : Named x) : Named (.struct1 n a x) := ⟨h, ha, hx⟩

theorem named_struct2 {n a b : String} {x y : Shown} (h : goodName n = true) (ha : goodName a = true)
    (hx : Named x) (hb : goodName b = true) (hy : Named y) : Named (.struct2 n a x b y) :=
  ⟨h, ha, hx, hb, hy⟩

theorem named_struct3 {n a b c : String} {x y z : Shown} (h : goodName n = true) (ha : goodName a = true)
    (hx : Named x) (hb : goodName b = true) (hy : Named y) (hc : goodName c = true) (hz : Named z) :
    Named (.struct3 n a x b y c z) :=
  ⟨h, ha, hx, hb, hy, hc, hz⟩

theorem named_enc : ∀ e : EncErr, Named e.shown
  | .usize _ => named_wrap (by decide +kernel) trivial
  | .isize _ => named_wrap (by decide +kernel) trivial
  | .badLength e => named_wrap (by decide +kernel) (named_enc e)
  | .badItem e => named_wrap (by decide +kernel) (named_enc e)
  | .item _ e => named_struct2 (by decide +kernel) (by decide +kernel) trivial (by decide +kernel) (named_enc e)
  | .pair _ e => ⟨.inl rfl, trivial, named_enc e⟩
  | .badDiscriminant e => named_wrap (by decide +kernel) (named_enc e)
  | .badField e => named_wrap (by decide +kernel) (named_enc e)
  | .badBorrow => named_wrap (by decide +kernel) (by unfold borrowShown Named; decide +kernel)
  | .badValue e => named_wrap (by decide +kernel) (named_enc e)
  | .gLargeIsize _ => named_wrap (by decide +kernel) (named_wrap (by decide +kernel) trivial)
  | .gLargeUsize _ => named_wrap (by decide +kernel) (named_wrap (by decide +kernel) trivial)

theorem named_utf8 (v : Byte) (i : Nat) : Named (utf8Shown v i) :=
  named_struct2 (by decide +kernel) (by decide +kernel) trivial (by decide +kernel) trivial

theorem named_length (c l : Nat) : Named (lengthShown c l) :=
  named_struct2 (by decide +kernel) (by decide +kernel) trivial (by decide +kernel) trivial

theorem named_cString (i : Nat) : Named (cStringShown i) :=
  named_struct1 (by decide +kernel) (by decide +kernel) trivial

theorem named_nonZero : Named nonZeroShown := by unfold nonZeroShown Named; decide +kernel

theorem named_systemTime (t : Int) : Named (systemTimeShown t) :=
  named_struct1 (by decide +kernel) (by decide +kernel) trivial

theorem named_dec : ∀ e : DecErr, Named e.shown
  | .char _ => named_struct1 (by decide +kernel) (by decide +kernel) trivial
  | .cString i => named_cString i
  | .nonZero => named_nonZero
  | .systemTime t => named_systemTime t
  | .length c l => named_length c l
  | .utf8 v i => named_utf8 v i
  | .badLength e => named_wrap (by decide +kernel) (named_dec e)
  | .badItem e => named_wrap (by decide +kernel) (named_dec e)
  | .item _ e => named_struct2 (by decide +kernel) (by decide +kernel) trivial (by decide +kernel) (named_dec e)
  | .unassigned _ => named_struct1 (by decide +kernel) (by decide +kernel) trivial
  | .badField e => named_wrap (by decide +kernel) (named_dec e)
  | .gBadString v i => named_wrap (by decide +kernel) (named_utf8 v i)
  | .gNullString i => named_wrap (by decide +kernel) (named_cString i)
  | .gNullInteger => named_wrap (by decide +kernel) named_nonZero
  | .gSmallBuffer c l => named_wrap (by decide +kernel) (named_length c l)
  | .gUnassigned _ => named_struct1 (by decide +kernel) (by decide +kernel) trivial
  | .gNarrowSystemTime t => named_wrap (by decide +kernel) (named_systemTime t)

theorem named_string : ∀ e : StringError, Named e.shown
  | .badUtf16 _ _ => named_wrap (by decide +kernel)
    (named_struct2 (by decide +kernel) (by decide +kernel) trivial (by decide +kernel) trivial)
  | .badUtf8 v i => named_wrap (by decide +kernel) (named_utf8 v i)
  | .smallBuffer e => named_wrap (by decide +kernel) (named_length e.capacity e.len)

theorem named_input (c p n : Nat) : Named (inputShown c p n) :=
  named_struct3 (by decide +kernel) (by decide +kernel) trivial (by decide +kernel) trivial (by decide +kernel)
    trivial

theorem named_output (c p n : Nat) : Named (outputShown c p n) :=
  named_struct3 (by decide +kernel) (by decide +kernel) trivial (by decide +kernel) trivial (by decide +kernel)
    trivial

theorem enc_shown_inj : ∀ {e e' : EncErr}, e.shown = e'.shown → e = e' := by
  intro e
  induction e with
  | _ =>
    intro e' h
    cases e' <;>
      simp [EncErr.shown, Shown.wrap, Shown.struct2, borrowShown] at h ⊢ <;>
      first
        | omega
        | (rename_i ih _; exact ih h)
        | (rename_i ih _ _; exact ⟨by omega, ih h.2⟩)

theorem dec_shown_inj : ∀ {e e' : DecErr}, e.shown = e'.shown → likeness e = likeness e' := by
  intro e
  induction e with
  | _ =>
    intro e' h
    cases e' <;>
      simp [DecErr.shown, Shown.wrap, Shown.struct2, Shown.struct1, utf8Shown, lengthShown, cStringShown,
        nonZeroShown, systemTimeShown, likeness] at h ⊢ <;>
      first
        | omega
        | (rename_i ih _; exact ih h)
        | (rename_i ih _ _; exact ⟨by omega, ih h.2⟩)
        | exact ⟨UInt8.toNat_inj.mp (by omega), by omega⟩

theorem likeness_shown : ∀ e : DecErr, (likeness e).shown = e.shown
  | .gUnassigned _ => rfl
  | .badLength e => congrArg (Shown.wrap _) (likeness_shown e)
  | .badItem e => congrArg (Shown.wrap _) (likeness_shown e)
  | .item _ e => congrArg (Shown.struct2 _ _ _ _) (likeness_shown e)
  | .badField e => congrArg (Shown.wrap _) (likeness_shown e)
  | .char _ | .cString _ | .nonZero | .systemTime _ | .length _ _ | .utf8 _ _ | .unassigned _
  | .gBadString _ _ | .gNullString _ | .gNullInteger | .gSmallBuffer _ _ | .gNarrowSystemTime _ => rfl

theorem dec_likeness_inj : ∀ (τ : DecTy) {e e' : DecErr}, DecHas τ e → DecHas τ e' →
    likeness e = likeness e' → e = e' := by
  intro τ
  induction τ with
  | infallible => intro e e' h; exact h.elim
  | coll l i ihl ihi =>
    rintro e e' (⟨a, rfl, ha⟩ | ⟨a, rfl, ha⟩) (⟨b, rfl, hb⟩ | ⟨b, rfl, hb⟩) h <;> simp [likeness] at h ⊢
    · exact ihl ha hb h
    · exact ihi ha hb h
  | item t ih =>
    rintro e e' ⟨i, a, rfl, ha⟩ ⟨j, b, rfl, hb⟩ h
    simp [likeness] at h ⊢
    exact ⟨h.1, ih ha hb h.2⟩
  | enum d f ih =>
    rintro e e' (⟨r, v, -, -, rfl⟩ | ⟨a, rfl, ha⟩) (⟨r', v', -, -, rfl⟩ | ⟨b, rfl, hb⟩) h <;>
      simp [likeness] at h ⊢
    · exact h
    · exact ih ha hb h
  | generic =>
    rintro e e' (⟨v, i, rfl⟩ | ⟨i, rfl⟩ | rfl | ⟨c, l, rfl⟩ | ⟨v, -, rfl⟩ | ⟨t, -, -, rfl⟩)
      (⟨v', i', rfl⟩ | ⟨i', rfl⟩ | rfl | ⟨c', l', rfl⟩ | ⟨v', -, rfl⟩ | ⟨t', -, -, rfl⟩) h <;>
      simp [likeness] at h ⊢ <;> first | exact h | omega
  | char => rintro e e' ⟨c, -, rfl⟩ ⟨c', -, rfl⟩ h; exact h
  | cString => rintro e e' ⟨c, rfl⟩ ⟨c', rfl⟩ h; exact h
  | nonZero => rintro e e' rfl rfl _; rfl
  | systemTime => rintro e e' ⟨t, -, -, rfl⟩ ⟨t', -, -, rfl⟩ h; exact h
  | length => rintro e e' ⟨c, l, rfl⟩ ⟨c', l', rfl⟩ h; exact h
  | utf8 => rintro e e' ⟨c, l, rfl⟩ ⟨c', l', rfl⟩ h; exact h

theorem string_shown_inj {e e' : StringError} (h : e.shown = e'.shown) : e = e' := by
  cases e <;> cases e' <;>
    simp [StringError.shown, Shown.wrap, Shown.struct2, utf8Shown, lengthShown] at h ⊢
  · exact ⟨BitVec.eq_of_toNat_eq (by omega), by omega⟩
  · next a b =>
    cases a; cases b
    simp at h ⊢
    omega
  · exact ⟨UInt8.toNat_inj.mp (by omega), by omega⟩

theorem enc_dec_apart : ∀ (e : EncErr) (d : DecErr), e.shown ≠ d.shown := by
  intro e
  induction e with
  | _ =>
    intro d h
    cases d <;>
      simp [EncErr.shown, DecErr.shown, Shown.wrap, Shown.struct2, Shown.struct1, utf8Shown, lengthShown,
        cStringShown, nonZeroShown, systemTimeShown, borrowShown] at h <;>
      (rename_i ih _; exact ih _ h)

/-! ### Parts -/

theorem occurs_refl (a : List Char) : OccursIn a a := ⟨[], [], by simp⟩

theorem occurs_trans {a b c : List Char} (h : OccursIn a b) (h' : OccursIn b c) : OccursIn a c := by
  obtain ⟨p, q, rfl⟩ := h
  obtain ⟨p', q', rfl⟩ := h'
  exact ⟨p' ++ p, q ++ q', by simp⟩

theorem occurs_wrap (n : String) (x : Shown) : OccursIn x.plain (Shown.wrap n x).plain :=
  ⟨n.toList ++ ['('], [')'], by simp [Shown.wrap, Shown.plain, ShownArgs.plain]⟩

theorem occurs_struct2 (n a b : String) (x y : Shown) : OccursIn y.plain (Shown.struct2 n a x b y).plain :=
  ⟨n.toList ++ [' ', '{', ' '] ++ (a.toList ++ ':' :: ' ' :: (x.plain ++ [',', ' '])) ++ b.toList ++ [':', ' '],
    [' ', '}'], by simp [Shown.struct2, Shown.plain, ShownFields.plain]⟩

theorem occurs_source : ∀ {c d : Cause}, c.source = some d → OccursIn d.shown.plain c.shown.plain
  | .enc e, d, h => by
    cases e <;> simp [Cause.source, EncErr.source] at h <;> subst h
    case item i e => exact occurs_struct2 _ _ _ _ _
    all_goals exact occurs_wrap _ _
  | .dec e, d, h => by
    cases e <;> simp [Cause.source, DecErr.source] at h <;> subst h
    case item i e => exact occurs_struct2 _ _ _ _ _
    all_goals exact occurs_wrap _ _
  | .borrow, d, h => by cases h

theorem occurs_leads {c d : Cause} (h : Leads c d) : OccursIn d.shown.plain c.shown.plain := by
  induction h with
  | refl => exact occurs_refl _
  | step h _ ih => exact occurs_trans ih (occurs_source h)

/-! ### Text -/

theorem wrap_text {n p : String} (x : Shown) (h : p.toList = n.toList ++ ['(']) :
    (Shown.wrap n x).plain = p.toList ++ x.plain ++ [')'] := by
  simp [Shown.wrap, Shown.plain, ShownArgs.plain, h]

theorem struct1_text {n a p : String} (x : Shown)
    (h : p.toList = n.toList ++ [' ', '{', ' '] ++ a.toList ++ [':', ' ']) :
    (Shown.struct1 n a x).plain = p.toList ++ x.plain ++ [' ', '}'] := by
  simp [Shown.struct1, Shown.plain, ShownFields.plain, h]

theorem struct2_text {n a b p q : String} (x y : Shown)
    (h : p.toList = n.toList ++ [' ', '{', ' '] ++ a.toList ++ [':', ' '])
    (h' : q.toList = [',', ' '] ++ b.toList ++ [':', ' ']) :
    (Shown.struct2 n a x b y).plain = p.toList ++ x.plain ++ q.toList ++ y.plain ++ [' ', '}'] := by
  simp [Shown.struct2, Shown.plain, ShownFields.plain, h, h']

theorem struct3_text {n a b c p q r : String} (x y z : Shown)
    (h : p.toList = n.toList ++ [' ', '{', ' '] ++ a.toList ++ [':', ' '])
    (h' : q.toList = [',', ' '] ++ b.toList ++ [':', ' '])
    (h'' : r.toList = [',', ' '] ++ c.toList ++ [':', ' ']) :
    (Shown.struct3 n a x b y c z).plain =
      p.toList ++ x.plain ++ q.toList ++ y.plain ++ r.toList ++ z.plain ++ [' ', '}'] := by
  simp [Shown.struct3, Shown.plain, ShownFields.plain, h, h', h'']

theorem nat_text (n : Nat) : (Shown.num n).plain = showNat n := by
  have h : ¬ ((n : Int) < 0) := by omega
  rw [Shown.plain, showInt, if_neg h]
  rfl

end Dbg

end Oct
