import Verif.Proofs.ErrorTypesWithin
/-
Helper lemmas about the chain of sources and the messages of errors.
-/
namespace Oct
open Spec

/-! ### Numerals -/

/-- The characters of numerals. -/
def IsDigit (c : Char) : Prop :=
  c ∈ ['0', '1', '2', '3', '4', '5', '6', '7', '8', '9', 'A', 'B', 'C', 'D', 'E', 'F']

instance (c : Char) : Decidable (IsDigit c) := inferInstanceAs (Decidable (c ∈ _))

theorem digitChar_isDigit {d : Nat} (h : d < 16) : IsDigit (digitChar d) := by
  revert h; revert d
  decide

/-- The value of a digit. -/
def digitVal (c : Char) : Nat :=
  ['0', '1', '2', '3', '4', '5', '6', '7', '8', '9', 'A', 'B', 'C', 'D', 'E', 'F'].idxOf c

theorem digitVal_digitChar {d : Nat} (h : d < 16) : digitVal (digitChar d) = d := by
  revert h; revert d
  decide

/-- The value of a numeral. -/
def numVal (b : Nat) (l : List Char) : Nat := l.foldl (fun a c => a * b + digitVal c) 0

theorem numVal_append (b : Nat) (l : List Char) (c : Char) :
    numVal b (l ++ [c]) = numVal b l * b + digitVal c := by
  simp [numVal]

theorem numeralAux_val {b : Nat} (hb : 2 ≤ b) (hb' : b ≤ 16) :
    ∀ (fuel n : Nat), n < fuel → numVal b (numeralAux b fuel n) = n
  | fuel + 1, n, h => by
    unfold numeralAux
    split
    · have : n < 16 := by omega
      simp [numVal, digitVal_digitChar this]
    · have hlt : n / b < n := Nat.div_lt_self (by omega) hb
      have hm : n % b < b := Nat.mod_lt _ (by omega)
      rw [numVal_append, numeralAux_val hb hb' fuel (n / b) (by omega),
        digitVal_digitChar (by omega)]
      rw [Nat.mul_comm]
      exact Nat.div_add_mod n b

theorem numeralAux_isDigit {b : Nat} (hb : 0 < b) (hb' : b ≤ 16) :
    ∀ (fuel n : Nat), ∀ c ∈ numeralAux b fuel n, IsDigit c
  | 0, _, _, h => by cases h
  | fuel + 1, n, c, h => by
    unfold numeralAux at h
    split at h
    · rw [List.mem_singleton] at h
      exact h ▸ digitChar_isDigit (by omega)
    · rw [List.mem_append, List.mem_singleton] at h
      rcases h with h | h
      · exact numeralAux_isDigit hb hb' fuel _ c h
      · have : n % b < b := Nat.mod_lt _ hb
        exact h ▸ digitChar_isDigit (by omega)

theorem numeral_val {b : Nat} (hb : 2 ≤ b) (hb' : b ≤ 16) (n : Nat) : numVal b (numeral b n) = n :=
  numeralAux_val hb hb' _ _ (by omega)

theorem numeral_isDigit {b : Nat} (hb : 2 ≤ b) (hb' : b ≤ 16) (n : Nat) :
    ∀ c ∈ numeral b n, IsDigit c :=
  numeralAux_isDigit (by omega) hb' _ _

theorem numVal_zeros (b k : Nat) (l : List Char) :
    numVal b (List.replicate k '0' ++ l) = numVal b l := by
  have : ∀ k, (List.replicate k '0').foldl (fun a c => a * b + digitVal c) 0 = 0 := by
    intro k
    induction k with
    | zero => rfl
    | succ k ih =>
      rw [List.replicate_succ, List.foldl_cons]
      have : (0 * b + digitVal '0') = 0 := by rw [Nat.zero_mul]; decide
      rw [this]
      exact ih
  simp only [numVal, List.foldl_append, this]

theorem showHex_val (w n : Nat) : numVal 16 (showHex w n) = n := by
  rw [showHex, numVal_zeros, numeral_val (by decide) (by decide)]

theorem showHex_isDigit (w n : Nat) : ∀ c ∈ showHex w n, IsDigit c := by
  intro c h
  rw [showHex, List.mem_append] at h
  rcases h with h | h
  · rw [List.eq_of_mem_replicate h]; decide
  · exact numeral_isDigit (by decide) (by decide) n c h

theorem numeralAux_length {b : Nat} (hb : 2 ≤ b) : ∀ (fuel n k : Nat), n < fuel →
    ((numeralAux b fuel n).length ≤ k + 1 ↔ n < b ^ (k + 1))
  | fuel + 1, n, k, h => by
    unfold numeralAux
    have hp : 0 < b ^ k := Nat.pow_pos (by omega)
    split
    · next hn =>
      constructor
      · intro _
        rw [Nat.pow_succ]
        exact Nat.lt_of_lt_of_le hn (Nat.le_mul_of_pos_left b hp)
      · intro _
        exact Nat.succ_le_succ (Nat.zero_le k)
    · next hn =>
      have hlt : n / b < n := Nat.div_lt_self (by omega) hb
      rw [List.length_append, List.length_singleton]
      cases k with
      | zero =>
        have hpos : 0 < (numeralAux b fuel (n / b)).length := by
          cases fuel with
          | zero => omega
          | succ f => unfold numeralAux; split <;> simp
        simp only [Nat.zero_add, Nat.pow_one]
        omega
      | succ k =>
        have ih := numeralAux_length hb fuel (n / b) k (by omega)
        rw [Nat.pow_succ, ← Nat.div_lt_iff_lt_mul (by omega), ← ih]
        omega

/-- The number of digits, at least `w`. -/
theorem showHex_length (w n k : Nat) (hw : w ≤ k + 1) (h1 : n < 16 ^ (k + 1))
    (h2 : w = k + 1 ∨ 16 ^ k ≤ n) : (showHex w n).length = k + 1 := by
  have hl := (numeralAux_length (b := 16) (by decide) (n + 1) n k (by omega)).mpr h1
  unfold showHex
  rw [List.length_append, List.length_replicate]
  change _ + (numeralAux 16 (n + 1) n).length = _
  change w - (numeralAux 16 (n + 1) n).length + _ = _
  rcases h2 with h2 | h2
  · omega
  · cases k with
    | zero =>
      have hpos : 0 < (numeralAux 16 (n + 1) n).length := by unfold numeralAux; split <;> simp
      omega
    | succ k =>
      have := mt (numeralAux_length (b := 16) (by decide) (n + 1) n k (by omega)).mp (by omega)
      omega

/-- Runs of characters of one kind end at the same place. -/
theorem run_cancel {P : Char → Prop} : ∀ {a b : List Char} {x y : Char} {r s : List Char},
    (∀ c ∈ a, P c) → (∀ c ∈ b, P c) → ¬ P x → ¬ P y → a ++ x :: r = b ++ y :: s →
    a = b ∧ x = y ∧ r = s
  | [], [], _, _, _, _, _, _, _, _, h => by
    injection h with h1 h2
    exact ⟨rfl, h1, h2⟩
  | [], c :: b, x, _, _, _, _, hb, hx, _, h => by
    injection h with h1 h2
    exact absurd (h1 ▸ hb c (by simp)) hx
  | c :: a, [], _, y, _, _, ha, _, _, hy, h => by
    injection h with h1 h2
    exact absurd (h1 ▸ ha c (by simp)) hy
  | c :: a, d :: b, x, y, r, s, ha, hb, hx, hy, h => by
    injection h with h1 h2
    obtain ⟨h3, h4⟩ := run_cancel (fun c hc => ha c (by simp [hc])) (fun c hc => hb c (by simp [hc]))
      hx hy h2
    exact ⟨by rw [h1, h3], h4⟩

theorem showNat_cancel {n m : Nat} {x y : Char} {r s : List Char} (hx : ¬ IsDigit x)
    (hy : ¬ IsDigit y) (h : showNat n ++ x :: r = showNat m ++ y :: s) : n = m ∧ r = s := by
  have := run_cancel (numeral_isDigit (by decide) (by decide) n)
    (numeral_isDigit (by decide) (by decide) m) hx hy h
  refine ⟨?_, this.2.2⟩
  rw [← numeral_val (b := 10) (by decide) (by decide) n, ← numeral_val (b := 10) (by decide) (by decide) m]
  exact congrArg _ this.1

theorem showHex_cancel {w n m : Nat} {x y : Char} {r s : List Char} (hx : ¬ IsDigit x)
    (hy : ¬ IsDigit y) (h : showHex w n ++ x :: r = showHex w m ++ y :: s) : n = m ∧ r = s := by
  have := run_cancel (showHex_isDigit w n) (showHex_isDigit w m) hx hy h
  refine ⟨?_, this.2.2⟩
  rw [← showHex_val w n, ← showHex_val w m]
  exact congrArg _ this.1

theorem showInt_cancel {n m : Int} {x y : Char} {r s : List Char} (hx : ¬ IsDigit x)
    (hy : ¬ IsDigit y) (h : showInt n ++ x :: r = showInt m ++ y :: s) (hxd : x ≠ '-')
    (hyd : y ≠ '-') : n = m ∧ r = s := by
  have hd : ∀ k : Nat, '-' ∉ numeral 10 k := fun k hk =>
    absurd (numeral_isDigit (b := 10) (by decide) (by decide) k _ hk) (by decide)
  have hne : ∀ (k : Nat) (z : Char) (q q' : List Char), z ≠ '-' → numeral 10 k ++ z :: q ≠ '-' :: q' := by
    intro k z q q' hz h
    cases hk : numeral 10 k with
    | nil =>
      rw [hk] at h
      injection h with h1 _
      exact hz h1
    | cons c l =>
      rw [hk] at h
      injection h with h1 _
      exact hd k (by rw [hk, h1]; simp)
  unfold showInt at h
  split at h <;> split at h
  · rw [List.cons_append, List.cons_append] at h
    injection h with _ h
    obtain ⟨h1, h2⟩ := showNat_cancel hx hy h
    exact ⟨by omega, h2⟩
  · exact absurd h.symm (hne _ _ _ _ hyd)
  · exact absurd h (hne _ _ _ _ hxd)
  · obtain ⟨h1, h2⟩ := showNat_cancel hx hy h
    exact ⟨by omega, h2⟩

/-- The text begins with a character that is neither a digit nor a sign. -/
def Delimits (s : List Char) : Prop := ∃ c, s.head? = some c ∧ ¬ IsDigit c ∧ c ≠ '-'

instance (s : List Char) : Decidable (Delimits s) :=
  match h : s.head? with
  | none => .isFalse (by rintro ⟨c, hc, _⟩; rw [h] at hc; cases hc)
  | some c =>
    if hc : ¬ IsDigit c ∧ c ≠ '-' then .isTrue ⟨c, h, hc⟩
    else .isFalse (by rintro ⟨d, hd, hc'⟩; rw [h] at hd; cases hd; exact hc hc')

theorem delimits_cons {s : List Char} (h : Delimits s) : ∃ c l, s = c :: l ∧ ¬ IsDigit c ∧ c ≠ '-' := by
  obtain ⟨c, hc, h⟩ := h
  cases s with
  | nil => cases hc
  | cons d l => cases hc; exact ⟨c, l, rfl, h⟩

theorem natText_cancel {n m : Nat} {s r r' : List Char} (hs : Delimits s)
    (h : showNat n ++ (s ++ r) = showNat m ++ (s ++ r')) : n = m ∧ r = r' := by
  obtain ⟨c, l, rfl, hc, _⟩ := delimits_cons hs
  obtain ⟨h1, h2⟩ := showNat_cancel hc hc h
  exact ⟨h1, List.append_cancel_left h2⟩

theorem natText_cancel_end {n m : Nat} {s : List Char} (hs : Delimits s)
    (h : showNat n ++ s = showNat m ++ s) : n = m := by
  obtain ⟨c, l, rfl, hc, _⟩ := delimits_cons hs
  exact (showNat_cancel hc hc h).1

theorem intText_cancel_end {n m : Int} {s : List Char} (hs : Delimits s)
    (h : showInt n ++ s = showInt m ++ s) : n = m := by
  obtain ⟨c, l, rfl, hc, hc'⟩ := delimits_cons hs
  exact (showInt_cancel hc hc h hc' hc').1

theorem hexText_cancel {w n m : Nat} {s r r' : List Char} (hs : Delimits s)
    (h : showHex w n ++ (s ++ r) = showHex w m ++ (s ++ r')) : n = m ∧ r = r' := by
  obtain ⟨c, l, rfl, hc, _⟩ := delimits_cons hs
  obtain ⟨h1, h2⟩ := showHex_cancel hc hc h
  exact ⟨h1, List.append_cancel_left h2⟩

theorem hexText_cancel_end {w n m : Nat} {s : List Char} (hs : Delimits s)
    (h : showHex w n ++ s = showHex w m ++ s) : n = m := by
  obtain ⟨c, l, rfl, hc, _⟩ := delimits_cons hs
  exact (showHex_cancel hc hc h).1

/-! ### Roots -/

theorem leads_unique {c r r' : Cause} (h : Root c r) (h' : Root c r') : r = r' := by
  obtain ⟨hl, hr⟩ := h
  obtain ⟨hl', hr'⟩ := h'
  induction hl with
  | refl c =>
    cases hl' with
    | refl => rfl
    | step h _ => rw [hr] at h; cases h
  | step h _ ih =>
    cases hl' with
    | refl => rw [hr'] at h; cases h
    | step h2 hl2 =>
      rw [h] at h2
      cases h2
      exact ih hr hl2

theorem root_step {c d r : Cause} (h : c.source = some d) : Root c r ↔ Root d r := by
  constructor
  · rintro ⟨hl, hr⟩
    cases hl with
    | refl => rw [hr] at h; cases h
    | step h2 hl =>
      rw [h] at h2
      cases h2
      exact ⟨hl, hr⟩
  · rintro ⟨hl, hr⟩
    exact ⟨.step h hl, hr⟩

theorem root_self {c : Cause} (h : c.source = none) : Root c c := ⟨.refl c, h⟩

theorem enc_root : ∀ (E : EncTy) (e : EncErr), E.isError = true → EncHas E e →
    ∃ r, Root (.enc e) r ∧ OwnReason r
  | .infallible, _, _, h => nomatch h
  | .usize, _, _, ⟨n, h⟩ => ⟨.enc (.usize n), by subst h; exact root_self rfl, trivial⟩
  | .isize, _, _, ⟨n, h⟩ => ⟨.enc (.isize n), by subst h; exact root_self rfl, trivial⟩
  | .coll l i, _, hi, h => by
    simp only [EncTy.isError, Bool.and_eq_true] at hi
    rcases h with ⟨e', rfl, h⟩ | ⟨e', rfl, h⟩
    · obtain ⟨r, h1, h2⟩ := enc_root l e' hi.1 h
      exact ⟨r, (root_step rfl).mpr h1, h2⟩
    · obtain ⟨r, h1, h2⟩ := enc_root i e' hi.2 h
      exact ⟨r, (root_step rfl).mpr h1, h2⟩
  | .item t, _, hi, ⟨_, e', h, h'⟩ => by
    subst h
    obtain ⟨r, h1, h2⟩ := enc_root t e' hi h'
    exact ⟨r, (root_step rfl).mpr h1, h2⟩
  | .pair _, _, hi, _ => by cases hi
  | .enum d f, _, hi, h => by
    rcases h with ⟨n, _, rfl⟩ | ⟨i, _, rfl⟩ | ⟨e', rfl, h⟩
    · exact ⟨.enc (.usize n), (root_step rfl).mpr (root_self rfl), trivial⟩
    · exact ⟨.enc (.isize i), (root_step rfl).mpr (root_self rfl), trivial⟩
    · obtain ⟨r, h1, h2⟩ := enc_root f e' hi h
      exact ⟨r, (root_step rfl).mpr h1, h2⟩
  | .refCell t, _, hi, h => by
    rcases h with rfl | ⟨e', rfl, h⟩
    · exact ⟨.borrow, (root_step rfl).mpr (root_self rfl), trivial⟩
    · obtain ⟨r, h1, h2⟩ := enc_root t e' hi h
      exact ⟨r, (root_step rfl).mpr h1, h2⟩
  | .generic, _, _, h => by
    rcases h with ⟨n, rfl⟩ | ⟨n, rfl⟩
    · exact ⟨.enc (.isize n), (root_step rfl).mpr (root_self rfl), trivial⟩
    · exact ⟨.enc (.usize n), (root_step rfl).mpr (root_self rfl), trivial⟩

/-- Every chain of sources of a decode error ends. -/
theorem dec_root : ∀ (e : DecErr), ∃ r, Root (.dec e) r ∧ OwnReason r
  | .char _ | .cString _ | .nonZero | .systemTime _ | .length _ _ | .utf8 _ _ | .unassigned _
  | .gUnassigned _ => ⟨_, root_self rfl, trivial⟩
  | .badLength e => (dec_root e).imp fun _ h => ⟨(root_step rfl).mpr h.1, h.2⟩
  | .badItem e => (dec_root e).imp fun _ h => ⟨(root_step rfl).mpr h.1, h.2⟩
  | .item _ e => (dec_root e).imp fun _ h => ⟨(root_step rfl).mpr h.1, h.2⟩
  | .badField e => (dec_root e).imp fun _ h => ⟨(root_step rfl).mpr h.1, h.2⟩
  | .gBadString v i => ⟨.dec (.utf8 v i), (root_step rfl).mpr (root_self rfl), trivial⟩
  | .gNullString i => ⟨.dec (.cString i), (root_step rfl).mpr (root_self rfl), trivial⟩
  | .gNullInteger => ⟨.dec .nonZero, (root_step rfl).mpr (root_self rfl), trivial⟩
  | .gSmallBuffer c l => ⟨.dec (.length c l), (root_step rfl).mpr (root_self rfl), trivial⟩
  | .gNarrowSystemTime t => ⟨.dec (.systemTime t), (root_step rfl).mpr (root_self rfl), trivial⟩

theorem enc_root_generic : ∀ (E : EncTy) (e : EncErr), E.intoGeneric = true → EncHas E e →
    ∀ r, Root (.enc e) r → Root (.enc e.toGeneric) r
  | .infallible, _, _, h => nomatch h
  | .usize, _, _, ⟨n, h⟩ => by subst h; exact fun r hr => (root_step rfl).mpr hr
  | .isize, _, _, ⟨n, h⟩ => by subst h; exact fun r hr => (root_step rfl).mpr hr
  | .coll l i, _, hi, h => by
    simp only [EncTy.intoGeneric, Bool.and_eq_true] at hi
    rcases h with ⟨e', rfl, h⟩ | ⟨e', rfl, h⟩
    · exact fun r hr => enc_root_generic l e' hi.1 h r ((root_step rfl).mp hr)
    · exact fun r hr => enc_root_generic i e' hi.2 h r ((root_step rfl).mp hr)
  | .item t, _, hi, ⟨_, e', h, h'⟩ => by
    subst h
    exact fun r hr => enc_root_generic t e' hi h' r ((root_step rfl).mp hr)
  | .pair _, _, hi, _ => by cases hi
  | .enum d f, _, hi, h => by
    rcases h with ⟨n, _, rfl⟩ | ⟨i, _, rfl⟩ | ⟨e', rfl, h⟩
    · exact fun r hr => (root_step rfl).mpr ((root_step rfl).mp hr)
    · exact fun r hr => (root_step rfl).mpr ((root_step rfl).mp hr)
    · exact fun r hr => enc_root_generic f e' hi h r ((root_step rfl).mp hr)
  | .refCell _, _, hi, _ => by cases hi
  | .generic, _, _, h => by
    rcases h with ⟨n, rfl⟩ | ⟨n, rfl⟩ <;> exact fun r hr => hr

theorem dec_root_generic : ∀ (e : DecErr) (r : Cause), Root (.dec e) r →
    Root (.dec e.toGeneric) (match r with
      | .dec (.unassigned v) => .dec (.gUnassigned (toU128 v))
      | r => r)
  | .char _, _, h => by cases leads_unique (root_self rfl) h; exact root_self rfl
  | .cString _, _, h => by
    cases leads_unique (root_self rfl) h; exact (root_step rfl).mpr (root_self rfl)
  | .nonZero, _, h => by
    cases leads_unique (root_self rfl) h; exact (root_step rfl).mpr (root_self rfl)
  | .systemTime _, _, h => by
    cases leads_unique (root_self rfl) h; exact (root_step rfl).mpr (root_self rfl)
  | .length _ _, _, h => by
    cases leads_unique (root_self rfl) h; exact (root_step rfl).mpr (root_self rfl)
  | .utf8 _ _, _, h => by
    cases leads_unique (root_self rfl) h; exact (root_step rfl).mpr (root_self rfl)
  | .unassigned _, _, h => by cases leads_unique (root_self rfl) h; exact root_self rfl
  | .gUnassigned _, _, h => by cases leads_unique (root_self rfl) h; exact root_self rfl
  | .badLength e, r, h => dec_root_generic e r ((root_step rfl).mp h)
  | .badItem e, r, h => dec_root_generic e r ((root_step rfl).mp h)
  | .item _ e, r, h => dec_root_generic e r ((root_step rfl).mp h)
  | .badField e, r, h => dec_root_generic e r ((root_step rfl).mp h)
  | .gBadString v i, r, h => by
    cases leads_unique ((root_step rfl).mpr (root_self (c := .dec (.utf8 v i)) rfl)) h; exact h
  | .gNullString i, r, h => by
    cases leads_unique ((root_step rfl).mpr (root_self (c := .dec (.cString i)) rfl)) h; exact h
  | .gNullInteger, r, h => by
    cases leads_unique ((root_step rfl).mpr (root_self (c := .dec .nonZero) rfl)) h; exact h
  | .gSmallBuffer c l, r, h => by
    cases leads_unique ((root_step rfl).mpr (root_self (c := .dec (.length c l)) rfl)) h; exact h
  | .gNarrowSystemTime t, r, h => by
    cases leads_unique ((root_step rfl).mpr (root_self (c := .dec (.systemTime t)) rfl)) h; exact h

/-! ### Messages -/

theorem usizeMessage_inj {n m : Nat} (h : (EncErr.usize n).message = (EncErr.usize m).message) :
    n = m := by
  simp only [EncErr.message, List.append_assoc] at h
  exact natText_cancel_end (by unfold text; decide +kernel) (List.append_cancel_left h)

theorem isizeMessage_inj {n m : Int} (h : (EncErr.isize n).message = (EncErr.isize m).message) :
    n = m := by
  simp only [EncErr.message, List.append_assoc] at h
  exact intText_cancel_end (by unfold text; decide +kernel) (List.append_cancel_left h)

/-- No message begins like that of `BorrowError`. -/
theorem encMessage_head : ∀ (E : EncTy) (e : EncErr), E.isError = true → EncHas E e →
    e.message.head? ≠ some 'a'
  | .infallible, _, _, h => nomatch h
  | .usize, _, _, ⟨n, h⟩ => by subst h; simp [EncErr.message, text]
  | .isize, _, _, ⟨n, h⟩ => by subst h; simp [EncErr.message, text]
  | .coll l i, _, hi, h => by
    rcases h with ⟨e', rfl, h⟩ | ⟨e', rfl, h⟩ <;> simp [EncErr.message, text]
  | .item t, _, hi, ⟨_, e', h, h'⟩ => by subst h; simp [EncErr.message, text]
  | .pair _, _, hi, _ => by cases hi
  | .enum d f, _, hi, h => by
    rcases h with ⟨n, _, rfl⟩ | ⟨i, _, rfl⟩ | ⟨e', rfl, h⟩ <;> simp [EncErr.message, text]
  | .refCell t, _, hi, h => by
    rcases h with rfl | ⟨e', rfl, h⟩ <;> simp [EncErr.message, text]
  | .generic, _, _, h => by
    rcases h with ⟨n, rfl⟩ | ⟨n, rfl⟩ <;> simp [EncErr.message, text]

theorem encMessage_inj : ∀ (E : EncTy) (e e' : EncErr), E.isError = true → EncHas E e →
    EncHas E e' → e.message = e'.message → e = e'
  | .infallible, _, _, _, h, _, _ => nomatch h
  | .usize, _, _, _, ⟨n, h⟩, ⟨m, h'⟩, hm => by
    subst h h'
    rw [usizeMessage_inj hm]
  | .isize, _, _, _, ⟨n, h⟩, ⟨m, h'⟩, hm => by
    subst h h'
    rw [isizeMessage_inj hm]
  | .coll l i, _, _, hi, h, h', hm => by
    simp only [EncTy.isError, Bool.and_eq_true] at hi
    rcases h with ⟨e, rfl, h⟩ | ⟨e, rfl, h⟩ <;> rcases h' with ⟨e', rfl, h'⟩ | ⟨e', rfl, h'⟩
    · rw [encMessage_inj l e e' hi.1 h h' (List.append_cancel_left hm)]
    · simp [EncErr.message, text] at hm
    · simp [EncErr.message, text] at hm
    · rw [encMessage_inj i e e' hi.2 h h' (List.append_cancel_left hm)]
  | .item t, _, _, hi, ⟨i, e, h1, h⟩, ⟨i', e', h1', h'⟩, hm => by
    subst h1 h1'
    simp only [EncErr.message, List.append_assoc] at hm
    obtain ⟨rfl, this⟩ := natText_cancel (by unfold text; decide +kernel) (List.append_cancel_left hm)
    rw [encMessage_inj t e e' hi h h' this]
  | .pair _, _, _, hi, _, _, _ => by cases hi
  | .enum d f, _, _, hi, h, h', hm => by
    rcases h with ⟨n, hd, rfl⟩ | ⟨i, hd, rfl⟩ | ⟨e, rfl, h⟩ <;>
      rcases h' with ⟨n', hd', rfl⟩ | ⟨i', hd', rfl⟩ | ⟨e', rfl, h'⟩
    · rw [usizeMessage_inj (List.append_cancel_left hm)]
    · rw [hd] at hd'; cases hd'
    · simp [EncErr.message, text] at hm
    · rw [hd] at hd'; cases hd'
    · rw [isizeMessage_inj (List.append_cancel_left hm)]
    · simp [EncErr.message, text] at hm
    · simp [EncErr.message, text] at hm
    · simp [EncErr.message, text] at hm
    · rw [encMessage_inj f e e' hi h h' (List.append_cancel_left hm)]
  | .refCell t, _, _, hi, h, h', hm => by
    rcases h with rfl | ⟨e, rfl, h⟩ <;> rcases h' with rfl | ⟨e', rfl, h'⟩
    · rfl
    · have := List.append_cancel_left hm
      exact absurd (by rw [← this]; simp [borrowMessage, text]) (encMessage_head t e' hi h')
    · have := List.append_cancel_left hm
      exact absurd (by rw [this]; simp [borrowMessage, text]) (encMessage_head t e hi h)
    · rw [encMessage_inj t e e' hi h h' (List.append_cancel_left hm)]
  | .generic, _, _, _, h, h', hm => by
    rcases h with ⟨n, rfl⟩ | ⟨n, rfl⟩ <;> rcases h' with ⟨m, rfl⟩ | ⟨m, rfl⟩
    · rw [isizeMessage_inj hm]
    · simp [EncErr.message, text] at hm
    · simp [EncErr.message, text] at hm
    · rw [usizeMessage_inj hm]

theorem charMessage_inj {n m : Nat} (h : (DecErr.char n).message = (DecErr.char m).message) :
    n = m := by
  simp only [DecErr.message, List.append_assoc] at h
  exact hexText_cancel_end (by unfold text; decide +kernel) (List.append_cancel_left h)

theorem cStringMessage_inj {n m : Nat} (h : (DecErr.cString n).message = (DecErr.cString m).message) :
    n = m := by
  simp only [DecErr.message, List.append_assoc] at h
  exact natText_cancel_end (by unfold text; decide +kernel) (List.append_cancel_left h)

theorem systemTimeMessage_inj {n m : Int}
    (h : (DecErr.systemTime n).message = (DecErr.systemTime m).message) : n = m := by
  simp only [DecErr.message, List.append_assoc] at h
  exact intText_cancel_end (by unfold text; decide +kernel) (List.append_cancel_left h)

theorem unassignedMessage_inj {n m : Int}
    (h : (DecErr.unassigned n).message = (DecErr.unassigned m).message) : n = m := by
  simp only [DecErr.message, List.append_assoc] at h
  exact intText_cancel_end (by unfold text; decide +kernel) (List.append_cancel_left h)

theorem lengthMessage_inj {c l c' l' : Nat}
    (h : (DecErr.length c l).message = (DecErr.length c' l').message) : c = c' ∧ l = l' := by
  simp only [DecErr.message, List.append_assoc] at h
  obtain ⟨h1, h⟩ := natText_cancel (by unfold text; decide +kernel) (List.append_cancel_left h)
  exact ⟨h1, natText_cancel_end (by unfold text; decide +kernel) h⟩

theorem utf8Message_inj {v v' : Byte} {i i' : Nat}
    (h : (DecErr.utf8 v i).message = (DecErr.utf8 v' i').message) : v = v' ∧ i = i' := by
  simp only [DecErr.message, showHexAlt, List.append_assoc, List.cons_append] at h
  have h := List.append_cancel_left (as := ['0', 'x']) (List.append_cancel_left h)
  obtain ⟨h1, h⟩ := hexText_cancel (by unfold text; decide +kernel) h
  exact ⟨UInt8.toNat_inj.mp h1, natText_cancel_end (by unfold text; decide +kernel) h⟩

theorem gUnassignedMessage_inj {n m : Nat}
    (h : (DecErr.gUnassigned n).message = (DecErr.gUnassigned m).message) : n = m := by
  simp only [DecErr.message, showHexAlt, List.append_assoc, List.cons_append] at h
  have h := List.append_cancel_left (as := ['0', 'x']) (List.append_cancel_left h)
  exact hexText_cancel_end (by unfold text; decide +kernel) h

theorem decMessage_inj : ∀ (E : DecTy) (e e' : DecErr), DecHas E e → DecHas E e' →
    e.message = e'.message → e = e'
  | .infallible, _, _, h, _, _ => nomatch h
  | .char, _, _, ⟨n, _, h⟩, ⟨m, _, h'⟩, hm => by
    subst h h'
    rw [charMessage_inj hm]
  | .cString, _, _, ⟨n, h⟩, ⟨m, h'⟩, hm => by
    subst h h'
    rw [cStringMessage_inj hm]
  | .nonZero, _, _, h, h', _ => by rw [h, h']
  | .systemTime, _, _, ⟨n, _, _, h⟩, ⟨m, _, _, h'⟩, hm => by
    subst h h'
    rw [systemTimeMessage_inj hm]
  | .length, _, _, ⟨c, l, h⟩, ⟨c', l', h'⟩, hm => by
    subst h h'
    obtain ⟨rfl, rfl⟩ := lengthMessage_inj hm
    rfl
  | .utf8, _, _, ⟨v, i, h⟩, ⟨v', i', h'⟩, hm => by
    subst h h'
    obtain ⟨rfl, rfl⟩ := utf8Message_inj hm
    rfl
  | .coll l i, _, _, h, h', hm => by
    rcases h with ⟨e, rfl, h⟩ | ⟨e, rfl, h⟩ <;> rcases h' with ⟨e', rfl, h'⟩ | ⟨e', rfl, h'⟩
    · rw [decMessage_inj l e e' h h' (List.append_cancel_left hm)]
    · simp [DecErr.message, text] at hm
    · simp [DecErr.message, text] at hm
    · rw [decMessage_inj i e e' h h' (List.append_cancel_left hm)]
  | .item t, _, _, ⟨i, e, h1, h⟩, ⟨i', e', h1', h'⟩, hm => by
    subst h1 h1'
    simp only [DecErr.message, List.append_assoc] at hm
    obtain ⟨rfl, this⟩ := natText_cancel (by unfold text; decide +kernel) (List.append_cancel_left hm)
    rw [decMessage_inj t e e' h h' this]
  | .enum d f, _, _, h, h', hm => by
    rcases h with ⟨r, v, _, _, rfl⟩ | ⟨e, rfl, h⟩ <;>
      rcases h' with ⟨r', v', _, _, rfl⟩ | ⟨e', rfl, h'⟩
    · rw [unassignedMessage_inj hm]
    · simp [DecErr.message, text] at hm
    · simp [DecErr.message, text] at hm
    · rw [decMessage_inj f e e' h h' (List.append_cancel_left hm)]
  | .generic, _, _, h, h', hm => by
    rcases h with ⟨v, i, rfl⟩ | ⟨i, rfl⟩ | rfl | ⟨c, l, rfl⟩ | ⟨v, _, rfl⟩ | ⟨t, _, _, rfl⟩ <;>
      rcases h' with ⟨v', i', rfl⟩ | ⟨i', rfl⟩ | rfl | ⟨c', l', rfl⟩ | ⟨v', _, rfl⟩ | ⟨t', _, _, rfl⟩ <;>
      first
        | rfl
        | (obtain ⟨rfl, rfl⟩ := utf8Message_inj hm; rfl)
        | (rw [cStringMessage_inj hm])
        | (obtain ⟨rfl, rfl⟩ := lengthMessage_inj hm; rfl)
        | (rw [gUnassignedMessage_inj hm])
        | (rw [systemTimeMessage_inj hm])
        | (simp [DecErr.message, text] at hm)

theorem inputMessage_inj {a b c a' b' c' : Nat} (h : inputMessage a b c = inputMessage a' b' c') :
    a = a' ∧ b = b' ∧ c = c' := by
  simp only [inputMessage, List.append_assoc] at h
  obtain ⟨h1, h⟩ := natText_cancel (by unfold text; decide +kernel) (List.append_cancel_left h)
  obtain ⟨h2, h⟩ := natText_cancel (by unfold text; decide +kernel) h
  exact ⟨natText_cancel_end (by unfold text; decide +kernel) h, h2, h1⟩

theorem outputMessage_inj {a b c a' b' c' : Nat} (h : outputMessage a b c = outputMessage a' b' c') :
    a = a' ∧ b = b' ∧ c = c' := by
  simp only [outputMessage, List.append_assoc] at h
  obtain ⟨h1, h⟩ := natText_cancel (by unfold text; decide +kernel) (List.append_cancel_left h)
  obtain ⟨h2, h⟩ := natText_cancel (by unfold text; decide +kernel) h
  exact ⟨natText_cancel_end (by unfold text; decide +kernel) h, h2, h1⟩

theorem encMessage_source (e : EncErr) (c : Cause) (h : e.source = some c) :
    ∃ pre, e.message = pre ++ causeMessage c := by
  cases e <;> cases h
  case badLength e => exact ⟨_, by rw [EncErr.message]; rfl⟩
  case badItem e => exact ⟨_, by rw [EncErr.message]; rfl⟩
  case item i e => exact ⟨_, by rw [EncErr.message]; rfl⟩
  case badDiscriminant e => exact ⟨_, by rw [EncErr.message]; rfl⟩
  case badField e => exact ⟨_, by rw [EncErr.message]; rfl⟩
  case badBorrow => exact ⟨_, by rw [EncErr.message]; rfl⟩
  case badValue e => exact ⟨_, by rw [EncErr.message]; rfl⟩
  case gLargeIsize i => exact ⟨[], by simp only [causeMessage, EncErr.message, List.nil_append]⟩
  case gLargeUsize n => exact ⟨[], by simp only [causeMessage, EncErr.message, List.nil_append]⟩

theorem decMessage_source (e : DecErr) (c : Cause) (h : e.source = some c) :
    ∃ pre, e.message = pre ++ causeMessage c := by
  cases e <;> cases h
  case badLength e => exact ⟨_, by rw [DecErr.message]; rfl⟩
  case badItem e => exact ⟨_, by rw [DecErr.message]; rfl⟩
  case item i e => exact ⟨_, by rw [DecErr.message]; rfl⟩
  case badField e => exact ⟨_, by rw [DecErr.message]; rfl⟩
  all_goals exact ⟨[], by simp only [causeMessage, DecErr.message, List.nil_append]⟩

theorem message_leads {c r : Cause} (h : Leads c r) :
    ∃ pre, causeMessage c = pre ++ causeMessage r := by
  induction h with
  | refl c => exact ⟨[], rfl⟩
  | @step a b c h _ ih =>
    obtain ⟨p, hp⟩ := ih
    have : ∃ pre, causeMessage a = pre ++ causeMessage b := by
      cases a with
      | enc e => exact encMessage_source e b h
      | dec e => exact decMessage_source e b h
      | borrow => cases h
    obtain ⟨q, hq⟩ := this
    exact ⟨q ++ p, by rw [hq, hp, List.append_assoc]⟩

theorem fieldTys_length : ∀ fs : Fields, fs.count = (fieldTys fs).length
  | .nil => rfl
  | .cons _ fs => congrArg (· + 1) (fieldTys_length fs)

theorem fields_encErr_iff : ∀ (fs : Fields) (E : EncTy), fs.encErr = some E ↔
    fieldTys fs ≠ [] ∧ ∀ t ∈ fieldTys fs, t.encErr = some E
  | .nil, _ => by simp [Fields.encErr, fieldTys]
  | .cons t .nil, _ => by simp [Fields.encErr, fieldTys]
  | .cons t (.cons u fs), E => by
    have ih := fields_encErr_iff (.cons u fs) E
    rw [fieldTys, List.forall_mem_cons, Fields.encErr]
    · constructor
      · intro h
        split at h
        · next he => exact ⟨by simp, h, (ih.mp (he ▸ h)).2⟩
        · cases h
      · rintro ⟨-, h1, h2⟩
        rw [if_pos (h1.trans (ih.mpr ⟨by simp [fieldTys], h2⟩).symm), h1]
    · intro h; cases h

theorem fields_decErr_iff : ∀ (fs : Fields) (E : DecTy), fs.decErr = some E ↔
    fieldTys fs ≠ [] ∧ ∀ t ∈ fieldTys fs, t.decErr = some E
  | .nil, _ => by simp [Fields.decErr, fieldTys]
  | .cons t .nil, _ => by simp [Fields.decErr, fieldTys, Ty.decErr]
  | .cons t (.cons u fs), E => by
    have ih := fields_decErr_iff (.cons u fs) E
    rw [fieldTys, List.forall_mem_cons, Fields.decErr]
    · constructor
      · intro h
        split at h
        · next he => exact ⟨by simp, h, (ih.mp (he ▸ h)).2⟩
        · cases h
      · rintro ⟨-, h1, h2⟩
        have h1' : t.decErrOf false = some E := h1
        rw [if_pos (h1'.trans (ih.mpr ⟨by simp [fieldTys], h2⟩).symm), h1']
    · intro h; cases h

theorem fields_encInto_iff : ∀ fs : Fields, fs.encInto = true ↔
    ∀ t ∈ fieldTys fs, ∃ E, t.encErr = some E ∧ E.intoGeneric = true
  | .nil => by simp [Fields.encInto, fieldTys]
  | .cons t fs => by
    simp only [Fields.encInto, Bool.and_eq_true, Option.any_eq_true, fields_encInto_iff fs, fieldTys,
      List.forall_mem_cons]

theorem variants_encInto_iff : ∀ vs : Variants, vs.encInto = true ↔
    ∀ t ∈ variantTys vs, ∃ E, t.encErr = some E ∧ E.intoGeneric = true
  | .nil => by simp [Variants.encInto, variantTys]
  | .cons _ fs vs => by
    simp only [Variants.encInto, Bool.and_eq_true, variants_encInto_iff vs, variantTys,
      fields_encInto_iff, List.forall_mem_append]

theorem fields_decInto_iff : ∀ fs : Fields, fs.decInto = true ↔
    ∀ t ∈ fieldTys fs, ∃ E, t.decErr = some E ∧ E.intoGeneric = true
  | .nil => by simp [Fields.decInto, fieldTys]
  | .cons t fs => by
    simp only [Fields.decInto, Bool.and_eq_true, Option.any_eq_true, fields_decInto_iff fs, fieldTys,
      List.forall_mem_cons, Ty.decErr]

theorem variants_decInto_iff : ∀ vs : Variants, vs.decInto = true ↔
    ∀ t ∈ variantTys vs, ∃ E, t.decErr = some E ∧ E.intoGeneric = true
  | .nil => by simp [Variants.decInto, variantTys]
  | .cons _ fs vs => by
    simp only [Variants.decInto, Bool.and_eq_true, variants_decInto_iff vs, variantTys,
      fields_decInto_iff, List.forall_mem_append]

theorem encField_iff (t : Ty) : (∃ E, t.encErr = some E ∧ E.intoGeneric = true) ↔
    t.encErr ≠ none ∧ ¬ Within IsLinkedListOrRefCell t := by
  cases h : t.encErr with
  | none => simp
  | some E => simp [encProp_within encProp_intoGeneric t E h]

theorem decField_iff (t : Ty) : (∃ E, t.decErr = some E ∧ E.intoGeneric = true) ↔
    t.decErr ≠ none ∧ ¬ Within IsCharOrResult t := by
  cases h : t.decErr with
  | none => simp
  | some E => simp [decInto_within t false E h]

end Oct
