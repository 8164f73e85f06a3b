import Verif.Model.Chars
import Verif.Spec.Chars
import Verif.Proofs.Utf8
/- Lemmas for C129: the chars of a text. -/
namespace Oct
open Spec
namespace Chars

theorem accCont_eq (ch : Nat) (b : Byte) : accCont ch b = ch * 64 + b.toNat % 64 := by
  unfold accCont
  rw [show (0x3F : Nat) = 2 ^ 6 - 1 from rfl, Nat.and_two_pow_sub_one_eq_mod,
    ← Nat.shiftLeft_add_eq_or_of_lt (Nat.mod_lt _ (by decide)), Nat.shiftLeft_eq]

theorem and5 (x : Nat) : x &&& 0x1F = x % 32 := by
  rw [show (0x1F : Nat) = 2 ^ 5 - 1 from rfl, Nat.and_two_pow_sub_one_eq_mod]

theorem and3 (x : Nat) : x &&& 7 = x % 8 := by
  rw [show (7 : Nat) = 2 ^ 3 - 1 from rfl, Nat.and_two_pow_sub_one_eq_mod]

theorem and4 (x : Nat) : x &&& 0x0F = x % 16 := by
  rw [show (0x0F : Nat) = 2 ^ 4 - 1 from rfl, Nat.and_two_pow_sub_one_eq_mod]

theorem and6 (x : Nat) : x &&& 0x3F = x % 64 := by
  rw [show (0x3F : Nat) = 2 ^ 6 - 1 from rfl, Nat.and_two_pow_sub_one_eq_mod]

theorem or12 (a b : Nat) (h : b < 4096) : (a <<< 12) ||| b = a * 4096 + b := by
  rw [← Nat.shiftLeft_add_eq_or_of_lt (show b < 2 ^ 12 from h), Nat.shiftLeft_eq]

theorem or18 (a b : Nat) (h : b < 262144) : (a <<< 18) ||| b = a * 262144 + b := by
  rw [← Nat.shiftLeft_add_eq_or_of_lt (show b < 2 ^ 18 from h), Nat.shiftLeft_eq]

theorem charOf_char (c : Char) (ch : Nat) (r : List Byte) (h : ch = c.val.toNat) :
    charOf ch r = .ok (some c, r) := by
  subst h
  unfold charOf
  rw [dif_pos (show c.val.toNat.isValidChar from c.valid)]
  congr 3

/-- The octets of a char, by the number of them. -/
inductive Octets (v : Nat) : List Byte → Prop where
  | one {a : Byte} : v < 0x80 → a.toNat = v → Octets v [a]
  | two {a b : Byte} : 0x80 ≤ v → v < 0x800 → a.toNat = 0xC0 + v / 64 → b.toNat = 0x80 + v % 64 →
      Octets v [a, b]
  | three {a b c : Byte} : 0x800 ≤ v → v < 0x10000 → a.toNat = 0xE0 + v / 4096 →
      b.toNat = 0x80 + v / 64 % 64 → c.toNat = 0x80 + v % 64 → Octets v [a, b, c]
  | four {a b c d : Byte} : 0x10000 ≤ v → v < 0x110000 → a.toNat = 0xF0 + v / 262144 →
      b.toNat = 0x80 + v / 4096 % 64 → c.toNat = 0x80 + v / 64 % 64 → d.toNat = 0x80 + v % 64 →
      Octets v [a, b, c, d]

theorem octets (c : Char) : Octets c.val.toNat (String.utf8EncodeChar c) := by
  have hv : c.val.toNat < 0xD800 ∨ (0xDFFF < c.val.toNat ∧ c.val.toNat < 0x110000) := c.valid
  unfold String.utf8EncodeChar
  generalize c.val.toNat = v at hv ⊢
  simp only
  have hk : ∀ x : Nat, (UInt8.ofNat (x % 64 + 128)).toNat = 0x80 + x % 64 := fun x => by
    rw [Utf8.toNat_ofNat_lt _ (by omega)]; omega
  split
  · exact .one (by omega) (Utf8.toNat_ofNat_lt _ (by omega))
  split
  · exact .two (by omega) (by omega) (by rw [Utf8.toNat_ofNat_lt _ (by omega)]; omega) (hk _)
  split
  · exact .three (by omega) (by omega) (by rw [Utf8.toNat_ofNat_lt _ (by omega)]; omega) (hk _) (hk _)
  · exact .four (by omega) (by omega) (by rw [Utf8.toNat_ofNat_lt _ (by omega)]; omega) (hk _) (hk _) (hk _)

theorem next_char (c : Char) (r : List Byte) :
    charsNext (String.utf8EncodeChar c ++ r) = .ok (some c, r) := by
  have ho := octets c
  generalize String.utf8EncodeChar c = l at ho
  cases ho with
  | one h1 h2 =>
    show charsNext (_ :: r) = _
    rw [charsNext, if_pos (by omega)]
    exact charOf_char c _ r h2
  | two h1 h2 h3 h4 =>
    show charsNext (_ :: _ :: r) = _
    rw [charsNext, if_neg (by omega)]
    simp only
    rw [if_neg (by omega)]
    refine charOf_char c _ r ?_
    rw [accCont_eq, and5]
    omega
  | three h1 h2 h3 h4 h5 =>
    show charsNext (_ :: _ :: _ :: r) = _
    rw [charsNext, if_neg (by omega)]
    simp only
    rw [if_pos (by omega), if_neg (by omega)]
    refine charOf_char c _ r ?_
    rw [accCont_eq, and5, and6, or12 _ _ (by omega)]
    omega
  | four h1 h2 h3 h4 h5 h6 =>
    show charsNext (_ :: _ :: _ :: _ :: r) = _
    rw [charsNext, if_neg (by omega)]
    simp only
    rw [if_pos (by omega), if_pos (by omega)]
    refine charOf_char c _ r ?_
    rw [accCont_eq, accCont_eq, and5, and6, and3, or18 _ _ (by omega)]
    omega

theorem isContByte_iff (b : Byte) : isContByte b = true ↔ 128 ≤ b.toNat ∧ b.toNat < 192 := by
  unfold isContByte
  exact decide_eq_true_iff

theorem back_char (c : Char) (r : List Byte) :
    charsBack ((String.utf8EncodeChar c).reverse ++ r) = .ok (some c, r) := by
  have ho := octets c
  generalize String.utf8EncodeChar c = l at ho
  cases ho with
  | @one o1 h1 h2 =>
    show charsBack (o1 :: r) = _
    rw [charsBack.eq_def]
    simp only
    rw [if_pos (by omega)]
    exact charOf_char c _ r h2
  | @two o1 o2 h1 h2 h3 h4 =>
    show charsBack (o2 :: o1 :: r) = _
    rw [charsBack.eq_def]
    simp only
    rw [if_neg (by omega), if_neg (by rw [isContByte_iff]; omega)]
    refine charOf_char c _ r ?_
    rw [accCont_eq, and5]
    omega
  | @three o1 o2 o3 h1 h2 h3 h4 h5 =>
    show charsBack (o3 :: o2 :: o1 :: r) = _
    rw [charsBack.eq_def]
    simp only
    rw [if_neg (by omega), if_pos (by rw [isContByte_iff]; omega), if_neg (by rw [isContByte_iff]; omega)]
    refine charOf_char c _ r ?_
    rw [accCont_eq, accCont_eq, and4]
    omega
  | @four o1 o2 o3 o4 h1 h2 h3 h4 h5 h6 =>
    show charsBack (o4 :: o3 :: o2 :: o1 :: r) = _
    rw [charsBack.eq_def]
    simp only
    rw [if_neg (by omega), if_pos (by rw [isContByte_iff]; omega), if_pos (by rw [isContByte_iff]; omega)]
    refine charOf_char c _ r ?_
    rw [accCont_eq, accCont_eq, accCont_eq, and3]
    omega

theorem utf8_cons (c : Char) (cs : List Char) :
    utf8 (c :: cs) = String.utf8EncodeChar c ++ utf8 cs := by simp [utf8]

theorem utf8_append (a b : List Char) : utf8 (a ++ b) = utf8 a ++ utf8 b := by simp [utf8]

theorem next_utf8 (cs : List Char) : charsNext (utf8 cs) = .ok (cs.head?, utf8 cs.tail) := by
  cases cs with
  | nil => rfl
  | cons c cs => rw [utf8_cons]; exact next_char c _

theorem nextBack_concat (cs : List Char) (c : Char) :
    charsNextBack (utf8 (cs ++ [c])) = .ok (some c, utf8 cs) := by
  unfold charsNextBack
  rw [utf8_append, List.reverse_append, show utf8 [c] = String.utf8EncodeChar c by simp [utf8],
    back_char]
  simp [Res.map]

theorem nextBack_utf8 (cs : List Char) :
    charsNextBack (utf8 cs) = .ok (cs.getLast?, utf8 cs.dropLast) := by
  rcases List.eq_nil_or_concat cs with h | ⟨l, c, h⟩
  · subst h; rfl
  · subst h
    rw [List.concat_eq_append, nextBack_concat]
    simp

/-- The calls of a history that are at the front. -/
def fronts (ops : List EndOp) : List Bool := ops.map (· == .next)

/-- An iterator that shows a list gives what is taken from it. -/
theorem runEnds_taken {σ β : Type} (next back : σ → Res Empty (Option β × σ)) (shows_ : σ → List β → Prop)
    (hn : ∀ s l, shows_ s l → ∃ s', next s = .ok (l.head?, s') ∧ shows_ s' l.tail)
    (hb : ∀ s l, shows_ s l → ∃ s', back s = .ok (l.getLast?, s') ∧ shows_ s' l.dropLast) :
    ∀ (ops : List EndOp) (s : σ) (l : List β), shows_ s l →
      ∃ s', runEnds next back s ops = .ok ((taken l (fronts ops)).1, s') ∧
        shows_ s' (taken l (fronts ops)).2
  | [], s, l, h => ⟨s, rfl, h⟩
  | .next :: ops, s, l, h => by
    obtain ⟨s1, h1, h2⟩ := hn s l h
    obtain ⟨s2, h3, h4⟩ := runEnds_taken next back shows_ hn hb ops s1 l.tail h2
    refine ⟨s2, ?_, h4⟩
    rw [runEnds, h1]
    simp only
    rw [h3]
    rfl
  | .nextBack :: ops, s, l, h => by
    obtain ⟨s1, h1, h2⟩ := hb s l h
    obtain ⟨s2, h3, h4⟩ := runEnds_taken next back shows_ hn hb ops s1 l.dropLast h2
    refine ⟨s2, ?_, h4⟩
    rw [runEnds, h1]
    simp only
    rw [h3]
    rfl

theorem length_utf8 (cs : List Char) : (utf8 cs).length = (cs.map Char.utf8Size).sum := by
  induction cs with
  | nil => rfl
  | cons c cs ih =>
    rw [utf8_cons, List.length_append, ih, String.length_utf8EncodeChar]
    rfl

theorem length_octets {v : Nat} {l : List Byte} (h : Octets v l) : 1 ≤ l.length ∧ l.length ≤ 4 := by
  cases h <;> simp

theorem length_bounds (cs : List Char) :
    cs.length ≤ (utf8 cs).length ∧ (utf8 cs).length ≤ 4 * cs.length := by
  induction cs with
  | nil => exact ⟨Nat.le_refl _, Nat.le_refl _⟩
  | cons c cs ih =>
    have := length_octets (octets c)
    rw [utf8_cons, List.length_append, List.length_cons]
    omega

theorem placed_append (i : Nat) (a b : List Char) :
    placed i (a ++ b) = placed i a ++ placed (i + (utf8 a).length) b := by
  induction a generalizing i with
  | nil => rfl
  | cons c a ih =>
    rw [List.cons_append, placed, placed, ih, utf8_cons, List.length_append,
      String.length_utf8EncodeChar, Nat.add_assoc]
    rfl

/-- The iterator is in front of the chars `cs`, the first at position `i`. -/
def Shows (it : CharIndices) (l : List (Nat × Char)) : Prop :=
  ∃ cs, it.rest = utf8 cs ∧ l = placed it.frontOffset cs

theorem indices_next (it : CharIndices) (l : List (Nat × Char)) (h : Shows it l) :
    ∃ it', it.next = .ok (l.head?, it') ∧ Shows it' l.tail := by
  obtain ⟨cs, h1, h2⟩ := h
  subst h2
  unfold CharIndices.next
  rw [h1, next_utf8]
  cases cs with
  | nil => exact ⟨_, rfl, [], rfl, rfl⟩
  | cons c cs =>
    refine ⟨_, rfl, cs, rfl, ?_⟩
    show placed _ cs = placed _ cs
    congr 1
    show it.frontOffset + _ = it.frontOffset + _
    rw [utf8_cons, List.length_append, String.length_utf8EncodeChar]
    show _ = _ + ((_ + (utf8 cs).length) - (utf8 cs).length)
    omega

theorem indices_back (it : CharIndices) (l : List (Nat × Char)) (h : Shows it l) :
    ∃ it', it.nextBack = .ok (l.getLast?, it') ∧ Shows it' l.dropLast := by
  obtain ⟨cs, h1, h2⟩ := h
  subst h2
  unfold CharIndices.nextBack
  rw [h1]
  rcases List.eq_nil_or_concat cs with h | ⟨m, c, h⟩
  · subst h
    exact ⟨_, rfl, [], rfl, rfl⟩
  · subst h
    rw [List.concat_eq_append, nextBack_concat]
    refine ⟨{ it with rest := utf8 m }, ?_, m, rfl, ?_⟩
    · rw [placed_append, placed, placed, List.getLast?_append]
      rfl
    · rw [placed_append, placed, placed, List.dropLast_concat]

/-- Octets of two chars in ascending order: a common part, and then a smaller octet. -/
theorem octets_lt {v w : Nat} {l m : List Byte} (hl : Octets v l) (hm : Octets w m) (h : v < w) :
    ∃ p x y l' m', l = p ++ x :: l' ∧ m = p ++ y :: m' ∧ x.toNat < y.toNat := by
  have eq : ∀ {x y : Byte}, x.toNat = y.toNat → x = y := fun h => UInt8.toNat_inj.mp h
  cases hl with
  | @one a h1 h2 =>
    cases hm with
    | @one a' k1 k2 => exact ⟨[], a, a', _, _, rfl, rfl, by omega⟩
    | @two a' b' k1 k2 k3 k4 => exact ⟨[], a, a', _, _, rfl, rfl, by omega⟩
    | @three a' b' c' k1 k2 k3 k4 k5 => exact ⟨[], a, a', _, _, rfl, rfl, by omega⟩
    | @four a' b' c' d' k1 k2 k3 k4 k5 k6 => exact ⟨[], a, a', _, _, rfl, rfl, by omega⟩
  | @two a b h1 h2 h3 h4 =>
    cases hm with
    | @one a' k1 k2 => omega
    | @two a' b' k1 k2 k3 k4 =>
      by_cases e : a.toNat < a'.toNat
      · exact ⟨[], a, a', _, _, rfl, rfl, e⟩
      · have := @eq a a' (by omega)
        subst this
        exact ⟨[a], b, b', _, _, rfl, rfl, by omega⟩
    | @three a' b' c' k1 k2 k3 k4 k5 => exact ⟨[], a, a', _, _, rfl, rfl, by omega⟩
    | @four a' b' c' d' k1 k2 k3 k4 k5 k6 => exact ⟨[], a, a', _, _, rfl, rfl, by omega⟩
  | @three a b c h1 h2 h3 h4 h5 =>
    cases hm with
    | @one a' k1 k2 => omega
    | @two a' b' k1 k2 k3 k4 => omega
    | @three a' b' c' k1 k2 k3 k4 k5 =>
      by_cases e : a.toNat < a'.toNat
      · exact ⟨[], a, a', _, _, rfl, rfl, e⟩
      · have := @eq a a' (by omega)
        subst this
        by_cases e : b.toNat < b'.toNat
        · exact ⟨[a], b, b', _, _, rfl, rfl, e⟩
        · have := @eq b b' (by omega)
          subst this
          exact ⟨[a, b], c, c', _, _, rfl, rfl, by omega⟩
    | @four a' b' c' d' k1 k2 k3 k4 k5 k6 => exact ⟨[], a, a', _, _, rfl, rfl, by omega⟩
  | @four a b c d h1 h2 h3 h4 h5 h6 =>
    cases hm with
    | @one a' k1 k2 => omega
    | @two a' b' k1 k2 k3 k4 => omega
    | @three a' b' c' k1 k2 k3 k4 k5 => omega
    | @four a' b' c' d' k1 k2 k3 k4 k5 k6 =>
      by_cases e : a.toNat < a'.toNat
      · exact ⟨[], a, a', _, _, rfl, rfl, e⟩
      · have := @eq a a' (by omega)
        subst this
        by_cases e : b.toNat < b'.toNat
        · exact ⟨[a], b, b', _, _, rfl, rfl, e⟩
        · have := @eq b b' (by omega)
          subst this
          by_cases e : c.toNat < c'.toNat
          · exact ⟨[a, b], c, c', _, _, rfl, rfl, e⟩
          · have := @eq c c' (by omega)
            subst this
            exact ⟨[a, b, c], d, d', _, _, rfl, rfl, by omega⟩

/-- Octets are compared by number. -/
def byOctet (x y : Byte) : Ordering := compare x.toNat y.toNat

/-- Chars are compared by code point. -/
def byPoint (x y : Char) : Ordering := compare x.val.toNat y.val.toNat

theorem lex_common (p l m : List Byte) :
    List.compareLex byOctet (p ++ l) (p ++ m) = List.compareLex byOctet l m := by
  induction p with
  | nil => rfl
  | cons a p ih =>
    rw [List.cons_append, List.cons_append, List.compareLex_cons_cons, ih, byOctet,
      Nat.compare_eq_eq.mpr rfl]
    rfl

theorem lex_lt (x y : Byte) (l m : List Byte) (h : x.toNat < y.toNat) :
    List.compareLex byOctet (x :: l) (y :: m) = .lt := by
  rw [List.compareLex_cons_cons, byOctet, Nat.compare_eq_lt.mpr h]
  rfl

theorem lex_gt (x y : Byte) (l m : List Byte) (h : y.toNat < x.toNat) :
    List.compareLex byOctet (x :: l) (y :: m) = .gt := by
  rw [List.compareLex_cons_cons, byOctet, Nat.compare_eq_gt.mpr h]
  rfl

/-- Texts are ordered by octets as they are by code points. -/
theorem lex_utf8 : ∀ as bs : List Char,
    List.compareLex byOctet (utf8 as) (utf8 bs) = List.compareLex byPoint as bs
  | [], [] => rfl
  | [], b :: bs => by
    rw [utf8_cons]
    cases h : String.utf8EncodeChar b with
    | nil => exact absurd h (Utf8.encode_ne_nil b)
    | cons x l => rfl
  | a :: as, [] => by
    rw [utf8_cons]
    cases h : String.utf8EncodeChar a with
    | nil => exact absurd h (Utf8.encode_ne_nil a)
    | cons x l => rfl
  | a :: as, b :: bs => by
    rw [utf8_cons, utf8_cons, List.compareLex_cons_cons]
    rcases Nat.lt_trichotomy a.val.toNat b.val.toNat with h | h | h
    · obtain ⟨p, x, y, l', m', e1, e2, e3⟩ := octets_lt (octets a) (octets b) h
      rw [e1, e2, List.append_assoc, List.append_assoc, lex_common, List.cons_append, List.cons_append,
        lex_lt _ _ _ _ e3, byPoint, Nat.compare_eq_lt.mpr h]
      rfl
    · have : a = b := Char.ext (UInt32.toNat_inj.mp h)
      subst this
      rw [lex_common, lex_utf8 as bs, byPoint, Nat.compare_eq_eq.mpr rfl]
      rfl
    · obtain ⟨p, x, y, l', m', e1, e2, e3⟩ := octets_lt (octets b) (octets a) h
      rw [e1, e2, List.append_assoc, List.append_assoc, lex_common, List.cons_append, List.cons_append,
        lex_gt _ _ _ _ e3, byPoint, Nat.compare_eq_gt.mpr h]
      rfl

end Chars
end Oct
