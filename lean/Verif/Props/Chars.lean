import Verif.Proofs.Chars
import Verif.Props.SizedStrings
/- C129: the chars of sized strings. -/
namespace Oct.Props
open Oct Oct.Spec
variable {ε : Type}

/-- C129. `chars` iterates over the chars of the text: whatever calls of `next` and `next_back` are made,
in any order, they return what is taken from the list of chars at its two ends, and what is left is the
text of the chars that are left. There is no undefined behaviour. -/
theorem C129_chars (n : Nat) (s : SizedStr) (h : SafeStr n s) :
    ∃ cs, (s.asBytes : Res ε _) = .ok (utf8 cs) ∧ ∃ it, s.chars = .ok it ∧
      ∀ ops : List EndOp, ∃ it', runEnds charsNext charsNextBack it ops
          = .ok ((taken cs (ops.map (· == .next))).1, it') ∧
        charsAsStr it' = utf8 (taken cs (ops.map (· == .next))).2 := by
  obtain ⟨bs, h1, ⟨cs, hcs⟩, _⟩ := C29_always_valid (ε := Empty) n s h
  subst hcs
  refine ⟨cs, SizedSlice.asSlice_any h1, utf8 cs, h1, fun ops => ?_⟩
  exact Chars.runEnds_taken charsNext charsNextBack (fun it l => it = utf8 l)
    (fun s l e => ⟨_, e ▸ Chars.next_utf8 l, rfl⟩) (fun s l e => ⟨_, e ▸ Chars.nextBack_utf8 l, rfl⟩)
    ops (utf8 cs) cs rfl

example : ∃ s, SafeStr 4 s ∧ s.chars = .ok [0x68, 0xC3, 0xAF] :=
  ⟨_, .fromUtf8 (bs := [0x68, 0xC3, 0xAF]) rfl, rfl⟩

/-- C129. `next` again and again gives the chars in order, and then nothing, forever. -/
theorem C129_forward (cs : List Char) (k : Nat) :
    runEnds charsNext charsNextBack (utf8 cs) (List.replicate (cs.length + k) .next)
      = .ok (cs.map some ++ List.replicate k none, []) := by
  induction cs with
  | nil =>
    rw [List.length_nil, Nat.zero_add]
    induction k with
    | zero => rfl
    | succ k ih =>
      rw [List.replicate_succ, runEnds]
      show (runEnds charsNext charsNextBack (utf8 []) (List.replicate k .next)).map _ = _
      rw [ih]
      rfl
  | cons c cs ih =>
    rw [List.length_cons, show cs.length + 1 + k = cs.length + k + 1 by omega, List.replicate_succ, runEnds]
    simp only
    rw [Chars.next_utf8 (c :: cs)]
    show (runEnds charsNext charsNextBack (utf8 cs) (List.replicate (cs.length + k) .next)).map _ = _
    rw [ih]
    rfl

/-- C129. `next_back` again and again gives them in reverse order. -/
theorem C129_backward (cs : List Char) (k : Nat) :
    runEnds charsNext charsNextBack (utf8 cs) (List.replicate (cs.length + k) .nextBack)
      = .ok (cs.reverse.map some ++ List.replicate k none, []) := by
  suffices hs : ∀ l : List Char, runEnds charsNext charsNextBack (utf8 l.reverse)
      (List.replicate (l.length + k) .nextBack) = .ok (l.map some ++ List.replicate k none, []) by
    have := hs cs.reverse
    rwa [List.reverse_reverse, List.length_reverse] at this
  intro l
  induction l with
  | nil =>
    rw [List.length_nil, Nat.zero_add]
    induction k with
    | zero => rfl
    | succ k ih =>
      rw [List.replicate_succ, runEnds]
      show (runEnds charsNext charsNextBack (utf8 []) (List.replicate k .nextBack)).map _ = _
      rw [show (utf8 [] : List Byte) = utf8 ([] : List Char).reverse from rfl, ih]
      rfl
  | cons c l ih =>
    rw [List.length_cons, show l.length + 1 + k = l.length + k + 1 by omega, List.replicate_succ, runEnds]
    simp only
    rw [List.reverse_cons, Chars.nextBack_concat]
    simp only
    rw [ih]
    rfl

/-- "hï" from the front, and from the back. -/
example :
    runEnds charsNext charsNextBack [0x68, 0xC3, 0xAF] [.next, .next, .next]
      = .ok ([some 'h', some 'ï', none], []) ∧
    runEnds charsNext charsNextBack [0x68, 0xC3, 0xAF] [.nextBack, .next, .nextBack]
      = .ok ([some 'ï', some 'h', none], []) := by decide

/-- C129. `char_indices` gives the chars with their positions, from both ends. -/
theorem C129_char_indices (n : Nat) (s : SizedStr) (h : SafeStr n s) :
    ∃ cs, (s.asBytes : Res ε _) = .ok (utf8 cs) ∧ ∃ it, s.charIndices = .ok it ∧
      ∀ ops : List EndOp, ∃ it', runEnds CharIndices.next CharIndices.nextBack it ops
          = .ok ((taken (placed 0 cs) (ops.map (· == .next))).1, it') := by
  obtain ⟨bs, h1, ⟨cs, hcs⟩, _⟩ := C29_always_valid (ε := Empty) n s h
  subst hcs
  refine ⟨cs, SizedSlice.asSlice_any h1, { frontOffset := 0, rest := utf8 cs }, ?_, fun ops => ?_⟩
  · unfold SizedStr.charIndices
    rw [h1]
    rfl
  · obtain ⟨it', h2, _⟩ := Chars.runEnds_taken CharIndices.next CharIndices.nextBack Chars.Shows
      Chars.indices_next Chars.indices_back ops { frontOffset := 0, rest := utf8 cs } (placed 0 cs)
      ⟨cs, rfl, rfl⟩
    exact ⟨it', h2⟩

/-- C129. The positions are where the chars are: before a char with position `i` there are `i` octets,
which are those of the chars before it. -/
theorem C129_positions (cs : List Char) (i : Nat) (c : Char) :
    (i, c) ∈ placed 0 cs ↔ ∃ a b, cs = a ++ c :: b ∧ i = (utf8 a).length := by
  suffices hs : ∀ (cs : List Char) (k : Nat),
      (i, c) ∈ placed k cs ↔ ∃ a b, cs = a ++ c :: b ∧ i = k + (utf8 a).length by
    have := hs cs 0
    simp only [Nat.zero_add] at this
    exact this
  intro cs
  induction cs with
  | nil =>
    intro k
    exact ⟨(fun h => nomatch h), fun ⟨a, b, h, _⟩ => by cases a <;> cases h⟩
  | cons d cs ih =>
    intro k
    rw [placed, List.mem_cons, ih]
    constructor
    · rintro (h | ⟨a, b, h1, h2⟩)
      · cases h
        exact ⟨[], cs, rfl, rfl⟩
      · refine ⟨d :: a, b, by rw [h1]; rfl, ?_⟩
        rw [Chars.utf8_cons, List.length_append, String.length_utf8EncodeChar]
        omega
    · rintro ⟨a, b, h1, h2⟩
      cases a with
      | nil => cases h1; exact .inl (by rw [h2]; rfl)
      | cons e a =>
        cases h1
        refine .inr ⟨a, b, rfl, ?_⟩
        rw [Chars.utf8_cons, List.length_append, String.length_utf8EncodeChar] at h2
        omega

example : placed 0 ['h', 'ï', '!'] = [(0, 'h'), (1, 'ï'), (3, '!')] := by decide

/-- C129. `offset` is the position of the next char, or the length of the text at its end. -/
theorem C129_offset (a b : List Char) :
    ∃ it outs, runEnds CharIndices.next CharIndices.nextBack
        { frontOffset := 0, rest := utf8 (a ++ b) } (List.replicate a.length .next) = .ok (outs, it) ∧
      it.offset = (utf8 a).length ∧ it.rest = utf8 b := by
  suffices hs : ∀ (a : List Char) (k : Nat), ∃ it outs, runEnds CharIndices.next CharIndices.nextBack
        { frontOffset := k, rest := utf8 (a ++ b) } (List.replicate a.length .next) = .ok (outs, it) ∧
      it.offset = k + (utf8 a).length ∧ it.rest = utf8 b by
    have := hs a 0
    simp only [Nat.zero_add] at this
    exact this
  intro a
  induction a with
  | nil => exact fun k => ⟨_, _, rfl, rfl, rfl⟩
  | cons c a ih =>
    intro k
    obtain ⟨it, outs, h1, h2, h3⟩ := ih (k + c.utf8Size)
    refine ⟨it, some (k, c) :: outs, ?_, ?_, h3⟩
    · rw [List.length_cons, List.replicate_succ, runEnds]
      simp only
      unfold CharIndices.next
      rw [show utf8 (c :: a ++ b) = utf8 (c :: (a ++ b)) from rfl, Chars.next_utf8]
      simp only [List.head?, List.tail]
      rw [Chars.utf8_cons, List.length_append, String.length_utf8EncodeChar, Nat.add_sub_cancel]
      show (runEnds CharIndices.next CharIndices.nextBack _ _).map _ = _
      rw [h1]
      rfl
    · rw [h2, Chars.utf8_cons, List.length_append, String.length_utf8EncodeChar]
      omega

/-- C129. `size_hint` brackets the number of chars, however far the iteration has come; and each bound is
reached: by a text of one octet for each char, and by one of four. -/
theorem C129_size_hint (cs : List Char) :
    (charsHint (utf8 cs)).1 ≤ cs.length ∧ (∃ m, (charsHint (utf8 cs)).2 = some m ∧ cs.length ≤ m) := by
  have := Chars.length_bounds cs
  refine ⟨?_, _, rfl, this.1⟩
  show ((utf8 cs).length + 3) / 4 ≤ _
  omega

example : charsHint (utf8 ['a', 'b']) = (1, some 2) ∧ charsHint (utf8 ['😀']) = (1, some 4) := by decide

/-- C129. Collecting the chars gives an equal string, if the capacity is no less than the length; if it
is less, the string is a proper prefix of the text. -/
theorem C129_collect (m n : Nat) (s : SizedStr) (h : SafeStr n s) :
    ∃ cs s', (s.asBytes : Res ε _) = .ok (utf8 cs) ∧ SizedStr.fromIter m cs = .ok s' ∧
      (s.len ≤ m → (SizedStr.eq s s' : Res ε _) = .ok true) ∧
      (m < s.len → (SizedStr.eq s s' : Res ε _) = .ok false ∧
        ∃ k, (s'.asBytes : Res ε _) = .ok (utf8 (cs.take k)) ∧ k < cs.length) := by
  obtain ⟨bs, h1, ⟨cs, hcs⟩, _, hl, _⟩ := C29_always_valid (ε := ε) n s h
  subst hcs
  obtain ⟨s', k, h2, _, h3, h4, h5, h6⟩ := C30_collect (ε := ε) m cs
  refine ⟨cs, s', h1, h2, fun hm => ?_, fun hm => ?_⟩
  · have hk : k = cs.length :=
      Nat.le_antisymm h3 (h6 _ (Nat.le_refl _) (by rw [List.take_length]; omega))
    subst hk
    rw [List.take_length] at h4
    obtain ⟨r, h7, h8⟩ := C48_str_eq (ε := ε) s s' _ _ h1 h4
    rw [h7, h8.mpr rfl]
  · have hne : (utf8 (cs.take k)).length ≠ (utf8 cs).length := by omega
    obtain ⟨r, h7, h8⟩ := C48_str_eq (ε := ε) s s' _ _ h1 h4
    refine ⟨?_, k, h4, ?_⟩
    · have hr : r = false := Bool.eq_false_iff.mpr fun e => hne (by rw [← h8.mp e])
      rw [h7, hr]
    · rcases Nat.lt_or_ge k cs.length with h' | h'
      · exact h'
      · rw [List.take_of_length_le h'] at hne
        exact absurd rfl hne

/-- C129. Sized strings are ordered like the lists of their chars, by code points. -/
theorem C129_order (a b : SizedStr) (as bs : List Char)
    (ha : (a.asBytes : Res ε _) = .ok (utf8 as)) (hb : (b.asBytes : Res ε _) = .ok (utf8 bs)) :
    (SizedStr.cmp a b : Res ε _)
      = .ok (some (List.compareLex (fun x y => compare x.val.toNat y.val.toNat) as bs)) := by
  rw [C48_str_cmp (ε := ε) a b _ _ ha hb]
  exact congrArg (fun o => Res.ok (some o)) (Chars.lex_utf8 as bs)

example : List.compareLex (fun (x y : Char) => compare x.val.toNat y.val.toNat) ['z'] ['ï'] = .lt := by
  decide

/-- C129. A string is empty if and only if it has no chars, and full if and only if no char can be put at
its end without exceeding the capacity. -/
theorem C129_empty_full (n : Nat) (s : SizedStr) (h : SafeStr n s) :
    ∃ cs, (s.asBytes : Res ε _) = .ok (utf8 cs) ∧ (s.isEmpty = true ↔ cs = []) ∧
      (s.isFull = true ↔ ∀ c : Char, s.capacity < (utf8 (cs ++ [c])).length) := by
  obtain ⟨bs, h1, ⟨cs, hcs⟩, hn, hl, hc, _⟩ := C29_always_valid (ε := ε) n s h
  subst hcs
  refine ⟨cs, h1, ?_, ?_⟩
  · rw [show s.isEmpty = (s.len == 0) from rfl, beq_iff_eq, hl]
    have := (Chars.length_bounds cs)
    constructor
    · intro h0
      exact List.length_eq_zero_iff.mp (by omega)
    · intro h0
      subst h0
      rfl
  · rw [show s.isFull = (s.len == s.capacity) from rfl, beq_iff_eq, hl]
    constructor
    · intro he c
      rw [← he, Chars.utf8_append, List.length_append]
      have := (Chars.length_bounds [c]).1
      rw [List.length_singleton] at this
      omega
    · intro hf
      have := hf 'a'
      rw [Chars.utf8_append, List.length_append, show (utf8 ['a']).length = 1 from rfl] at this
      omega

/-- C129. What octets suffice to make a step: as many as the first of them says, whether or not they are UTF-8. -/
theorem C129_needs_octets (x : Byte) (r : List Byte) : charsNext (x :: r) = .ub .outOfBounds ↔
    r.length + 1 < (if x.toNat < 0x80 then 1 else if x.toNat < 0xE0 then 2 else if x.toNat < 0xF0 then 3 else 4) := by
  have hc : ∀ n (l : List Byte), charOf n l ≠ .ub .outOfBounds := by
    intro n l h
    unfold charOf at h
    split at h <;> cases h
  rw [charsNext.eq_def]
  simp only
  by_cases h1 : x.toNat < 128
  · rw [if_pos h1, if_pos h1]
    exact ⟨fun h => absurd h (hc _ _), fun h => by omega⟩
  · rw [if_neg h1, if_neg h1]
    by_cases h2 : x.toNat < 0xE0
    · rw [if_pos h2]
      match r with
      | [] => exact ⟨fun _ => by simp, fun _ => rfl⟩
      | y :: r =>
        simp only
        rw [if_neg (by omega)]
        exact ⟨fun h => absurd h (hc _ _), fun h => by simp at h; omega⟩
    · rw [if_neg h2]
      by_cases h3 : x.toNat < 0xF0
      · rw [if_pos h3]
        match r with
        | [] => exact ⟨fun _ => by simp, fun _ => rfl⟩
        | [y] =>
          simp only
          rw [if_pos (by omega)]
          exact ⟨fun _ => by simp, fun _ => rfl⟩
        | y :: z :: r =>
          simp only
          rw [if_pos (by omega), if_neg (by omega)]
          exact ⟨fun h => absurd h (hc _ _), fun h => by simp at h; omega⟩
      · rw [if_neg h3]
        match r with
        | [] => exact ⟨fun _ => by simp, fun _ => rfl⟩
        | [y] =>
          simp only
          rw [if_pos (by omega)]
          exact ⟨fun _ => by simp, fun _ => rfl⟩
        | [y, z] =>
          simp only
          rw [if_pos (by omega), if_pos (by omega)]
          exact ⟨fun _ => by simp, fun _ => rfl⟩
        | y :: z :: w :: r =>
          simp only
          rw [if_pos (by omega), if_pos (by omega)]
          exact ⟨fun h => absurd h (hc _ _), fun h => by simp at h; omega⟩

example : charsNext [0x80] = .ub .outOfBounds ∧ charsNext [0xF0, 0x9F, 0x98] = .ub .outOfBounds := ⟨rfl, rfl⟩

/-- C129. The iterators rely on the text being UTF-8: for other octets they are undefined. -/
theorem C129_needs_utf8 : charsNext [0xC3] = .ub .outOfBounds ∧
    charsNext [0xED, 0xA0, 0x80] = .ub .invalidChar ∧ charsNextBack [0x80] = .ub .outOfBounds ∧
    ¬ IsUtf8 [0xC3] ∧ ¬ IsUtf8 [0xED, 0xA0, 0x80] ∧ ¬ IsUtf8 [0x80] := by
  refine ⟨rfl, rfl, rfl, ?_, ?_, ?_⟩ <;>
  · rw [← Utf8.valid_iff]
    decide

end Oct.Props
