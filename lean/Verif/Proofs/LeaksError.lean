import Verif.Spec.LeaksError
import Verif.Proofs.LeaksTy
/- When `decode` returns an error, and loses allocations then. -/
namespace Oct
open Spec
set_option linter.unusedVariables false
variable {α β κ : Type}

/-- An error is returned. -/
def Tracked.Err (x : Tracked α) : Prop := ∃ e, x.res = .err e

theorem Tracked.Err.bad {x : Tracked α} (h : x.Err) : x.Bad := fun a ha => by
  obtain ⟨e, he⟩ := h
  rw [he] at ha; cases ha

/-- Wherever these octets are, an error is returned, with such an account. -/
def Turns (m : Track α) (w : List Byte) (P : Tracked α → Prop) : Prop :=
  ∀ pre rest n, (m ⟨pre ++ (w ++ rest), pre.length⟩ n).Err ∧ P (m ⟨pre ++ (w ++ rest), pre.length⟩ n)

/-- What is known of the errors of a decoding: whether there are any (`E`), and any that lose something
(`L`). -/
structure ErrAcct (m : Track α) (E L : Prop) : Prop where
  up : ∀ I n, (m I n).Err → E ∧ ((m I n).lost ≠ [] → L)
  e : E → ∃ w, Turns m w fun _ => True
  l : L → ∃ w, Turns m w fun x => x.lost ≠ []

theorem after_err {raw : Bool} {x : Tracked α} {y : Tracked β} :
    (Track.after raw x y).Err ↔ y.Err := by
  unfold Track.after Tracked.Err
  cases hr : y.res with
  | ok a => simp
  | err e => simp
  | panic e => simp
  | ub e => simp

theorem bindWith_err {raw : Bool} {m : Track α} {f : α → Track β} {I : Input} {n : Nat}
    (h : (m I n).Bad) : (Track.bindWith raw m f I n).Err ↔ (m I n).Err := by
  unfold Track.bindWith
  dsimp only
  unfold Tracked.Bad at h
  unfold Tracked.Err
  generalize m I n = x at h ⊢
  cases hr : x.res with
  | ok a => exact absurd hr (h a)
  | err e => simp
  | panic e => simp
  | ub e => simp

/-- One after the other, with an error. -/
theorem Gives.bind_turns {raw : Bool} {m : Track α} {f : α → Track β} {w w' : List Byte} {a : α}
    {P : Tracked α → Prop} {P' Q : Tracked β → Prop} (ha : Gives m w a P) (h' : Turns (f a) w' P')
    (hq : ∀ x y, P x → y.Bad → P' y → Q (Track.after raw x y)) :
    Turns (Track.bindWith raw m f) (w ++ w') Q := by
  intro pre rest n
  have h1 := ha pre (w' ++ rest) n
  rw [← List.append_assoc w] at h1
  obtain ⟨h1, h2, h3⟩ := h1
  rw [bindWith_ok h1]
  have h4 := h' (pre ++ w) rest (m ⟨pre ++ (w ++ w' ++ rest), pre.length⟩ n).next
  rw [List.length_append, List.append_assoc pre, ← List.append_assoc w, ← h2] at h4
  exact ⟨after_err.mpr h4.1, hq _ _ h3 h4.1.bad h4.2⟩

theorem Turns.bind {raw : Bool} {m : Track α} {f : α → Track β} {w : List Byte} {P : List Nat → Prop}
    (h : Turns m w fun x => P x.lost) : Turns (Track.bindWith raw m f) w fun x => P x.lost :=
  fun pre rest n => ⟨(bindWith_err (h pre rest n).1.bad).mpr (h pre rest n).1, by
    show P (Track.bindWith raw m f _ n).lost
    rw [(bindWith_bad (h pre rest n).1.bad).2]; exact (h pre rest n).2⟩

namespace ErrAcct
variable {D O S F L₀ E L E' L' : Prop}

theorem congr {m : Track α} (h : ErrAcct m E L) (he : E ↔ E') (hl : L ↔ L') : ErrAcct m E' L' := by
  rw [← propext he, ← propext hl]; exact h

theorem leaking {m : Track α} (h : ErrAcct m E L) (hl : L) : E := by
  obtain ⟨w, hw⟩ := h.l hl
  exact (h.up _ _ (hw [] [] 0).1).1

theorem of {d : Dec α} {A : List Byte → α → Prop} {R : List Byte → DecErr → Prop} (h : Parses d A R) :
    ErrAcct (Track.of d) (∃ bs e, R bs e) False where
  up I n := fun ⟨e, he⟩ => by
    obtain ⟨bs, -, hr⟩ := ((h I (d I).2).2 e).mp (Prod.ext he rfl)
    exact ⟨⟨bs, e, hr⟩, fun h => absurd rfl h⟩
  e := fun ⟨bs, e, hr⟩ => ⟨bs, fun pre rest n => ⟨⟨e, congrArg Prod.fst
    (((h ⟨pre ++ (bs ++ rest), pre.length⟩ _).2 e).mpr ⟨bs, ⟨⟨rest, List.drop_left⟩, rfl⟩, hr⟩)⟩, trivial⟩⟩
  l h := h.elim

/-- Something that never returns an error. -/
theorem never {m : Track α} (h : ∀ I n, ¬ (m I n).Err) : ErrAcct m False False :=
  ⟨fun I n he => absurd he (h I n), fun h => h.elim, fun h => h.elim⟩

theorem pure' (a : α) : ErrAcct (Track.of (pure a)) False False := never fun I n ⟨e, he⟩ => by cases he

theorem alloc (a : α) : ErrAcct (Track.alloc a) False False := never fun I n ⟨e, he⟩ => by cases he

theorem fail (e : DecErr) : ErrAcct (Track.of (Dec.fail e : Dec α)) True False where
  up I n _ := ⟨trivial, fun h => absurd rfl h⟩
  e _ := ⟨[], fun pre rest n => ⟨⟨e, rfl⟩, trivial⟩⟩
  l h := h.elim

theorem same {m : Track α} {m' : Track β} (h : ErrAcct m E L)
    (he : ∀ I n, (m' I n).Err ↔ (m I n).Err) (hl : ∀ I n, (m' I n).lost = (m I n).lost) :
    ErrAcct m' E L where
  up I n h' := by rw [hl]; exact h.up I n ((he I n).mp h')
  e h' := by
    obtain ⟨w, hw⟩ := h.e h'
    exact ⟨w, fun pre rest n => ⟨(he _ _).mpr (hw pre rest n).1, trivial⟩⟩
  l h' := by
    obtain ⟨w, hw⟩ := h.l h'
    exact ⟨w, fun pre rest n => ⟨(he _ _).mpr (hw pre rest n).1, by
      show (m' _ n).lost ≠ []
      rw [hl]; exact (hw pre rest n).2⟩⟩

theorem mapErr {m : Track α} (h : ErrAcct m E L) (g : DecErr → DecErr) : ErrAcct (m.mapErr g) E L := by
  refine h.same (fun I n => ?_) fun I n => rfl
  show (∃ e, (m I n).res.mapErr g = .err e) ↔ ∃ e, (m I n).res = .err e
  cases (m I n).res <;> simp [Res.mapErr]

theorem map {m : Track α} (h : ErrAcct m E L) (g : α → β) : ErrAcct (m.map g) E L := by
  refine h.same (fun I n => ?_) fun I n => rfl
  show (∃ e, (m I n).res.map g = .err e) ↔ ∃ e, (m I n).res = .err e
  cases (m I n).res <;> simp [Res.map]

theorem keep {m : Track α} (h : ErrAcct m E L) : ErrAcct m.keep E L :=
  h.same (fun I n => Iff.rfl) fun I n => rfl

theorem bindWith {raw : Bool} {m : Track α} {f : α → Track β} (h : Acct m D O S F L₀) (he : ErrAcct m E L)
    (h' : ∀ a, ErrAcct (f a) E' L') :
    ErrAcct (Track.bindWith raw m f) (E ∨ D ∧ E') (L ∨ D ∧ L' ∨ (raw = true ∧ O ∨ S) ∧ E') := by
  refine ⟨fun I n hb => ?_, fun hE => ?_, fun hl => ?_⟩
  · rcases (m I n).ok_or_bad with ⟨a, ha⟩ | hx
    · rw [bindWith_ok ha] at hb ⊢
      obtain ⟨h1, h2, h3⟩ := h.ok I n a ha
      have hy := after_err.mp hb
      obtain ⟨h4, h5⟩ := (h' a).up _ _ hy
      rw [after_loses hy.bad]
      refine ⟨.inr ⟨h1, h4⟩, ?_⟩
      rintro (hl | hl | ⟨hr, hl⟩)
      · exact .inr (.inl ⟨h1, h5 hl⟩)
      · exact .inr (.inr ⟨.inr (h3 hl), h4⟩)
      · exact .inr (.inr ⟨.inl ⟨hr, h2 hl⟩, h4⟩)
    · obtain ⟨h1, h2⟩ := he.up I n ((bindWith_err hx).mp hb)
      rw [(bindWith_bad hx).2]
      exact ⟨.inl h1, fun hl => .inl (h2 hl)⟩
  · rcases hE with hE | ⟨hd, hE⟩
    · obtain ⟨w, hw⟩ := he.e hE
      exact ⟨w, hw.bind (P := fun _ => True)⟩
    · obtain ⟨w, a, ha⟩ := h.d hd
      obtain ⟨w', hw'⟩ := (h' a).e hE
      exact ⟨_, ha.bind_turns hw' fun _ _ _ _ _ => trivial⟩
  · rcases hl with hl | ⟨hd, hl⟩ | ⟨ho, hf⟩
    · obtain ⟨w, hw⟩ := he.l hl
      exact ⟨w, hw.bind (P := fun l => l ≠ [])⟩
    · obtain ⟨w, a, ha⟩ := h.d hd
      obtain ⟨w', hw'⟩ := (h' a).l hl
      exact ⟨_, ha.bind_turns hw' fun _ _ _ hy hl => (after_loses hy).mpr (.inl hl)⟩
    · have : ∃ w a, Gives m w a fun x => x.Spills ∨ raw = true ∧ x.Owns := by
        rcases ho with ⟨hr, ho⟩ | hs
        · obtain ⟨w, a, ha⟩ := h.o ho
          exact ⟨w, a, fun pre rest n => ⟨(ha pre rest n).1, (ha pre rest n).2.1,
            .inr ⟨hr, (ha pre rest n).2.2⟩⟩⟩
        · obtain ⟨w, a, ha⟩ := h.s hs
          exact ⟨w, a, fun pre rest n => ⟨(ha pre rest n).1, (ha pre rest n).2.1,
            .inl (ha pre rest n).2.2⟩⟩
      obtain ⟨w, a, ha⟩ := this
      obtain ⟨w', hw'⟩ := (h' a).e hf
      exact ⟨_, ha.bind_turns hw' fun _ _ hx hy _ => (after_loses hy).mpr (.inr hx)⟩

theorem bind {m : Track α} {f : α → Track β} (h : Acct m D O S F L₀) (he : ErrAcct m E L)
    (h' : ∀ a, ErrAcct (f a) E' L') :
    ErrAcct (Track.bind m f) (E ∨ D ∧ E') (L ∨ D ∧ L' ∨ S ∧ E') :=
  (bindWith h he h').congr Iff.rfl (by simp)

/-- A choice, which is read first. -/
theorem choose {d : Dec κ} {f : κ → Track β} {A E' L' : κ → Prop} (hd : ∀ I a, (d I).1 = .ok a → A a)
    (hy : ∀ a, A a → ∃ w, Yields d w (.ok a)) (he : ErrAcct (Track.of d) E False)
    (h : ∀ a, A a → ErrAcct (f a) (E' a) (L' a)) :
    ErrAcct (Track.bind (Track.of d) f) (E ∨ ∃ a, A a ∧ E' a) (∃ a, A a ∧ L' a) := by
  have gives : ∀ a, A a → ∃ w, Gives (Track.of d) w a fun _ => True := fun a ha => by
    obtain ⟨w, hw⟩ := hy a ha
    exact ⟨w, fun pre rest n => ⟨congrArg Prod.fst (hw pre rest), congrArg Prod.snd (hw pre rest), trivial⟩⟩
  refine ⟨fun I n hb => ?_, fun hE => ?_, fun hl => ?_⟩
  · rcases (Track.of d I n).ok_or_bad with ⟨a, ha⟩ | hx
    · have hA := hd I a ha
      unfold Track.bind at hb ⊢
      rw [bindWith_ok ha] at hb ⊢
      have hy := after_err.mp hb
      obtain ⟨h4, h5⟩ := (h a hA).up _ _ hy
      rw [after_loses hy.bad]
      refine ⟨.inr ⟨a, hA, h4⟩, ?_⟩
      rintro (hl | hl | ⟨hr, hl⟩)
      · exact ⟨a, hA, h5 hl⟩
      · simp [Tracked.Spills, Track.of] at hl
      · cases hr
    · obtain ⟨h1, h2⟩ := he.up I n ((bindWith_err hx).mp hb)
      unfold Track.bind
      rw [(bindWith_bad hx).2]
      exact ⟨.inl h1, fun hl => (h2 hl).elim⟩
  · rcases hE with hE | ⟨a, hA, hE⟩
    · obtain ⟨w, hw⟩ := he.e hE
      exact ⟨w, hw.bind (P := fun _ => True)⟩
    · obtain ⟨w, ha⟩ := gives a hA
      obtain ⟨w', hw'⟩ := (h a hA).e hE
      exact ⟨_, ha.bind_turns hw' fun _ _ _ _ _ => trivial⟩
  · obtain ⟨a, hA, hl⟩ := hl
    obtain ⟨w, ha⟩ := gives a hA
    obtain ⟨w', hw'⟩ := (h a hA).l hl
    exact ⟨_, ha.bind_turns hw' fun _ _ _ hy hl => (after_loses hy).mpr (.inl hl)⟩

theorem ite {c : Prop} [Decidable c] {m m' : Track α} (h : c → ErrAcct m E L)
    (h' : ¬ c → ErrAcct m' E' L') : ErrAcct (if c then m else m') (if c then E else E')
      (if c then L else L') := by
  split
  · rename_i hc
    exact (h hc).congr (by simp) (by simp)
  · rename_i hc
    exact (h' hc).congr (by simp) (by simp)

/-- A length comes without errors. -/
theorem usize : ErrAcct (Track.of decUsize) False False :=
  (of decUsize_parses).congr (by simp) Iff.rfl

/-- A choice of a length. -/
theorem prefixed {f : Nat → Track β} {E L : Nat → Prop} (h : ∀ n, ErrAcct (f n) (E n) (L n)) :
    ErrAcct (Track.bind (Track.of decUsize) f) (∃ n, n ≤ 65535 ∧ E n) (∃ n, n ≤ 65535 ∧ L n) := by
  refine (choose (fun I a ha => ?_) (fun n hn => ⟨_, decUsize_yields n hn⟩) usize fun n _ => h n).congr
    (by simp) Iff.rfl
  have := decUsize_ends hsOverflow (U := anyUb) I
  rw [ha] at this
  exact this

theorem items {m : Track α} (h : Acct m D O S F L₀) (he : ErrAcct m E L) : ∀ n i,
    ErrAcct (trackItems m n i) (n ≠ 0 ∧ E) (n ≠ 0 ∧ L ∨ 2 ≤ n ∧ O ∧ E)
  | 0, _ => (pure' _).congr (by simp) (by simp)
  | n + 1, i => by
    have ho := h.owning
    have hs := h.spilling
    refine (bindWith (raw := true) (h.mapErr _) (he.mapErr _) fun v => (items h he n (i + 1)).map _).congr ?_ ?_
    · simp only [ne_eq, Nat.succ_ne_zero, not_false_eq_true, true_and]
      constructor
      · rintro (h | ⟨-, -, h⟩) <;> exact h
      · exact .inl
    · constructor
      · rintro (hl | ⟨hd, hl | ⟨h2, hl⟩⟩ | ⟨hl, h0, hf⟩)
        · exact .inl ⟨by omega, hl⟩
        · exact .inl ⟨by omega, hl.2⟩
        · exact .inr ⟨by omega, hl⟩
        · exact .inr ⟨by omega, hl.elim (fun h => h.2) hs, hf⟩
      · rintro (⟨-, hl⟩ | ⟨h2, hl, hf⟩)
        · exact .inl hl
        · exact .inr (.inr ⟨.inl ⟨rfl, hl⟩, by omega, hf⟩)

theorem buffer (len : Nat) : ErrAcct (trackBuffer len) False False := by
  unfold trackBuffer
  split
  · exact pure' _
  · exact alloc _

theorem vec {m : Track α} (h : Acct m D O S F L₀) (he : ErrAcct m E L) :
    ErrAcct (trackVec m) E (L ∨ O ∧ E) := by
  refine (prefixed fun n => bind (Acct.buffer n) (buffer n) fun _ => (items h he n 0).map _).congr ?_ ?_
  · constructor
    · rintro ⟨n, -, h | ⟨-, -, h⟩⟩
      · exact h.elim
      · exact h
    · exact fun h => ⟨1, by decide, .inr ⟨trivial, by decide, h⟩⟩
  · constructor
    · rintro ⟨n, -, h | ⟨-, h | h⟩ | h⟩
      · exact h.elim
      · exact .inl h.2
      · exact .inr h.2
      · exact h.1.elim
    · exact fun hl => ⟨2, by decide, .inr (.inl ⟨trivial, hl.elim (fun hl => .inl ⟨by decide, hl⟩)
        fun hl => .inr ⟨by decide, hl⟩⟩)⟩

theorem nodes {m : Track α} (h : Acct m D O S F L₀) (he : ErrAcct m E L) : ∀ n i,
    ErrAcct (trackNodes m n i) (n ≠ 0 ∧ E) (n ≠ 0 ∧ L ∨ 2 ≤ n ∧ S ∧ E)
  | 0, _ => (pure' _).congr (by simp) (by simp)
  | n + 1, i => by
    refine (bind (h.mapErr _) (he.mapErr _) fun v => bind (Acct.alloc ()) (alloc ()) fun _ =>
      (nodes h he n (i + 1)).map _).congr ?_ ?_
    · constructor
      · rintro (h | ⟨-, h | ⟨-, h⟩⟩)
        · exact ⟨Nat.succ_ne_zero n, h⟩
        · exact h.elim
        · exact ⟨Nat.succ_ne_zero n, h.2⟩
      · exact fun h => .inl h.2
    · constructor
      · rintro (hl | ⟨hd, hl | ⟨-, hl | ⟨h2, hl⟩⟩ | hl⟩ | ⟨hl, hf | ⟨-, h0, hf⟩⟩)
        · exact .inl ⟨by omega, hl⟩
        · exact hl.elim
        · exact .inl ⟨by omega, hl.2⟩
        · exact .inr ⟨by omega, hl⟩
        · exact hl.1.elim
        · exact hf.elim
        · exact .inr ⟨by omega, hl, hf⟩
      · rintro (⟨-, hl⟩ | ⟨h2, hl, hf⟩)
        · exact .inl hl
        · exact .inr (.inr ⟨hl, .inr ⟨trivial, by omega, hf⟩⟩)

theorem list {m : Track α} (h : Acct m D O S F L₀) (he : ErrAcct m E L) :
    ErrAcct (trackList m) E (L ∨ S ∧ E) := by
  refine (prefixed fun n => (nodes h he n 0).map _).congr ?_ ?_
  · exact ⟨fun ⟨_, _, _, h⟩ => h, fun h => ⟨1, by decide, by decide, h⟩⟩
  · constructor
    · rintro ⟨n, -, h | h⟩
      · exact .inl h.2
      · exact .inr h.2
    · exact fun hl => ⟨2, by decide, hl.elim (fun hl => .inl ⟨by decide, hl⟩)
        fun hl => .inr ⟨by decide, hl⟩⟩

theorem sized {m : Track α} (h : Acct m D O S F L₀) (he : ErrAcct m E L) (n : Nat) :
    ErrAcct (trackSized m n) (n < 65535 ∨ E) (n ≠ 0 ∧ L ∨ 2 ≤ n ∧ O ∧ E) := by
  refine (prefixed fun len => .ite (c := len > n) (fun _ => .fail _)
    fun _ => (items h he n 0).keep.map _).congr ?_ ?_
  · constructor
    · rintro ⟨len, hl, h⟩
      split at h
      · exact .inl (by omega)
      · exact .inr h.2
    · rintro h
      by_cases hn : n < 65535
      · exact ⟨65535, by omega, by rw [if_pos hn]; trivial⟩
      · exact ⟨0, by omega, by rw [if_neg (by omega)]; exact ⟨by omega, h.resolve_left hn⟩⟩
  · constructor
    · rintro ⟨len, -, h⟩
      split at h
      · exact h.elim
      · exact h
    · exact fun h => ⟨0, by decide, by rw [if_neg (by omega)]; exact h⟩

end ErrAcct

section map
variable [DecidableEq α] {K : Track α} {V : Track β} {Dk Ok Sk Fk Dv Ov Sv Fv Xk Xv Ek Lk Ev Lv : Prop}
variable {c i : Nat} {m : MapVal α β} {h : Holdings} {I : Input} {n : Nat}

theorem mapLoop_key_err (hx : (atItem i K I n).Bad) :
    (trackMapLoop K V (c + 1) i m h I n).Err ↔ (atItem i K I n).Err := by
  unfold trackMapLoop
  dsimp only [atItem] at hx ⊢
  generalize K.mapErr (fun e => .badItem (.item i e)) I n = x at hx ⊢
  unfold Tracked.Err
  cases hr : x.res with
  | ok a => exact absurd hr (hx a)
  | err e => simp [Tracked.stop]
  | panic e => simp [Tracked.stop]
  | ub e => simp [Tracked.stop]

theorem mapLoop_value_err {k : α} (hx : (atItem i K I n).res = .ok k)
    (hy : (atItem i V (atItem i K I n).rest (atItem i K I n).next).Bad) :
    (trackMapLoop K V (c + 1) i m h I n).Err ↔
      (atItem i V (atItem i K I n).rest (atItem i K I n).next).Err := by
  unfold trackMapLoop
  dsimp only [atItem] at hx hy ⊢
  generalize K.mapErr (fun e => .badItem (.item i e)) I n = x at hx hy ⊢
  rw [hx]
  dsimp only
  generalize V.mapErr (fun e => .badItem (.item i e)) x.rest x.next = y at hy ⊢
  unfold Tracked.Err
  cases hr : y.res with
  | ok a => exact absurd hr (hy a)
  | err e => simp [Tracked.stop]
  | panic e => simp [Tracked.stop]
  | ub e => simp [Tracked.stop]

/-- What the loop of a map can do with errors, at most. -/
theorem mapLoop_err_upper (hK : Acct K Dk Ok Sk Fk Xk) (hV : Acct V Dv Ov Sv Fv Xv) (eK : ErrAcct K Ek Lk)
    (eV : ErrAcct V Ev Lv) : ∀ (c i : Nat) (m : MapVal α β) (h : Holdings) (I : Input) (n : Nat),
    (trackMapLoop K V c i m h I n).Err → (c ≠ 0 ∧ (Ek ∨ Dk ∧ Ev)) ∧ ((trackMapLoop K V c i m h I n).lost ≠ [] →
      (Lk ∨ Dk ∧ Lv ∨ Sk ∧ Ev ∨ (Holdings.kept h ≠ [] ∨ 2 ≤ c ∧ (Sk ∧ Dv ∨ Dk ∧ Sv)) ∧ (Ek ∨ Ev)))
  | 0, i, m, h, I, n, ⟨e, he⟩ => by cases he
  | c + 1, i, m, h, I, n, hb => by
    have hX := (hK.mapErr (fun e => .badItem (.item i e))).toUpper
    have hY := (hV.mapErr (fun e => .badItem (.item i e))).toUpper
    have eX := eK.mapErr (fun e => .badItem (.item i e))
    have eY := eV.mapErr (fun e => .badItem (.item i e))
    rcases (atItem i K I n).ok_or_bad with ⟨k, hx⟩ | hx
    · obtain ⟨x1, -, x3⟩ := hX.ok _ _ _ hx
      rcases (atItem i V (atItem i K I n).rest (atItem i K I n).next).ok_or_bad with ⟨v, hy⟩ | hy
      · obtain ⟨y1, -, y3⟩ := hY.ok _ _ _ hy
        obtain ⟨m', r, hr, -, e1, -, -, e4, e5⟩ := mapLoop_entry (c := c) (m := m) (h := h) hx hy
        have hk : Holdings.kept r.1 ≠ [] ∨ r.2.kept ≠ [] → _ := fun h' =>
          (holdInsert_kept k _ _ m.val h).mp (hr ▸ h')
        obtain ⟨e, he⟩ := hb
        obtain ⟨⟨h0, hE⟩, z2⟩ := mapLoop_err_upper hK hV eK eV c (i + 1) m' r.1 _ _ ⟨e, e1.symm.trans he⟩
        have h2 : 2 ≤ c + 1 := by omega
        have hin := fun h' => (hk h').elim (Or.inl (b := 2 ≤ c + 1 ∧ (Sk ∧ Dv ∨ Dk ∧ Sv))) fun h' =>
          .inr ⟨h2, h'.elim (fun h' => .inl ⟨x3 (.inl h'), y1⟩) fun h' => .inr ⟨x1, y3 (.inl h')⟩⟩
        have hff : Ek ∨ Ev := hE.imp_right (·.2)
        refine ⟨⟨Nat.succ_ne_zero c, hE⟩, fun hl => ?_⟩
        rcases e5.mp hl with hs | hs | hs | hs
        · exact .inr (.inr (.inr ⟨.inr ⟨h2, .inl ⟨x3 (.inr hs), y1⟩⟩, hff⟩))
        · exact .inr (.inr (.inr ⟨.inr ⟨h2, .inr ⟨x1, y3 (.inr hs)⟩⟩, hff⟩))
        · exact .inr (.inr (.inr ⟨hin (.inr hs), hff⟩))
        · rcases z2 hs with h' | h' | h' | ⟨h', -⟩
          · exact .inl h'
          · exact .inr (.inl h')
          · exact .inr (.inr (.inl h'))
          · exact .inr (.inr (.inr ⟨h'.elim (fun h' => hin (.inl h')) fun h' => .inr ⟨h2, h'.2⟩, hff⟩))
      · obtain ⟨y1, y2⟩ := eY.up _ _ ((mapLoop_value_err hx hy).mp hb)
        refine ⟨⟨Nat.succ_ne_zero c, .inr ⟨x1, y1⟩⟩, fun hl => ?_⟩
        rw [(mapLoop_value hx hy).2] at hl
        simp only [append_nonempty] at hl
        rcases hl with hl | (hl | hl) | hl
        · exact .inr (.inl ⟨x1, y2 hl⟩)
        · exact .inr (.inr (.inl ⟨x3 (.inr hl), y1⟩))
        · exact .inr (.inr (.inl ⟨x3 (.inl hl), y1⟩))
        · exact .inr (.inr (.inr ⟨.inl hl, .inr y1⟩))
    · obtain ⟨x1, x2⟩ := eX.up _ _ ((mapLoop_key_err hx).mp hb)
      refine ⟨⟨Nat.succ_ne_zero c, .inl x1⟩, fun hl => ?_⟩
      rw [(mapLoop_key hx).2] at hl
      rcases append_nonempty.mp hl with hl | hl
      · exact .inl (x2 hl)
      · exact .inr (.inr (.inr ⟨.inl hl, .inl x1⟩))

/-- A key that is rejected, in a map with entries. -/
theorem mapLoop_turns_key {w : List Byte} {P : Tracked α → Prop} (hw : Turns (atItem i K) w P)
    (pre rest : List Byte) (n : Nat) :
    (trackMapLoop K V (c + 1) i m h ⟨pre ++ (w ++ rest), pre.length⟩ n).Err ∧
    ((∀ x, P x → x.lost ≠ []) ∨ Holdings.kept h ≠ [] →
      (trackMapLoop K V (c + 1) i m h ⟨pre ++ (w ++ rest), pre.length⟩ n).lost ≠ []) := by
  have hx := (hw pre rest n).1.bad
  refine ⟨(mapLoop_key_err hx).mpr (hw pre rest n).1, fun hl => ?_⟩
  rw [(mapLoop_key hx).2]
  exact append_nonempty.mpr (hl.imp_left fun hl => hl _ (hw pre rest n).2)

/-- A value that is rejected, in a map with entries. -/
theorem mapLoop_turns_value {w w' : List Byte} {k : α} {P : Tracked α → Prop} {Q : Tracked β → Prop}
    (hk : Gives (atItem i K) w k P) (hw : Turns (atItem i V) w' Q) (pre rest : List Byte) (n : Nat) :
    (trackMapLoop K V (c + 1) i m h ⟨pre ++ (w ++ w' ++ rest), pre.length⟩ n).Err ∧
    ((∀ y, Q y → y.lost ≠ []) ∨ (∀ x, P x → x.Spills) ∨ Holdings.kept h ≠ [] →
      (trackMapLoop K V (c + 1) i m h ⟨pre ++ (w ++ w' ++ rest), pre.length⟩ n).lost ≠ []) := by
  obtain ⟨h1, h2, h3⟩ := by
    have := hk pre (w' ++ rest) n
    rwa [← List.append_assoc w] at this
  have h4 := hw (pre ++ w) rest (atItem i K ⟨pre ++ (w ++ w' ++ rest), pre.length⟩ n).next
  rw [List.length_append, List.append_assoc pre, ← List.append_assoc w, ← h2] at h4
  refine ⟨(mapLoop_value_err h1 h4.1.bad).mpr h4.1, fun hl => ?_⟩
  rw [(mapLoop_value h1 h4.1.bad).2]
  simp only [append_nonempty]
  rcases hl with hl | hl | hl
  · exact .inl (hl _ h4.2)
  · exact .inr (.inl (hl _ h3).symm)
  · exact .inr (.inr hl)

namespace ErrAcct

theorem hashMap (hK : Acct K Dk Ok Sk Fk Xk) (hV : Acct V Dv Ov Sv Fv Xv) (eK : ErrAcct K Ek Lk)
    (eV : ErrAcct V Ev Lv) : ErrAcct (trackHashMap K V) (Ek ∨ Dk ∧ Ev)
      (Lk ∨ Dk ∧ Lv ∨ Sk ∧ Ev ∨ (Sk ∧ Dv ∨ Dk ∧ Sv) ∧ (Ek ∨ Ev)) := by
  have hX := fun i => hK.mapErr (fun e => .badItem (.item i e))
  have hY := fun i => hV.mapErr (fun e => .badItem (.item i e))
  have eX := fun i => eK.mapErr (fun e => .badItem (.item i e))
  have eY := fun i => eV.mapErr (fun e => .badItem (.item i e))
  have loop : ∀ len, ErrAcct (trackMapLoop K V len 0 ⟨[], List.nodup_nil⟩ []) (len ≠ 0 ∧ (Ek ∨ Dk ∧ Ev))
      (len ≠ 0 ∧ (Lk ∨ Dk ∧ Lv ∨ Sk ∧ Ev) ∨ 2 ≤ len ∧ (Sk ∧ Dv ∨ Dk ∧ Sv) ∧ (Ek ∨ Ev)) := by
    intro len
    refine ⟨fun I n hb => ?_, ?_, ?_⟩
    · obtain ⟨⟨h0, hE⟩, hl⟩ := mapLoop_err_upper hK hV eK eV len 0 ⟨[], List.nodup_nil⟩ [] I n hb
      refine ⟨⟨h0, hE⟩, fun h' => ?_⟩
      rcases hl h' with h | h | h | ⟨h | ⟨h2, h⟩, hE⟩
      · exact .inl ⟨h0, .inl h⟩
      · exact .inl ⟨h0, .inr (.inl h)⟩
      · exact .inl ⟨h0, .inr (.inr h)⟩
      · exact absurd rfl h
      · exact .inr ⟨h2, h, hE⟩
    · rintro ⟨h0, hE⟩
      obtain ⟨c, rfl⟩ := Nat.exists_eq_succ_of_ne_zero h0
      rcases hE with hE | ⟨hd, hE⟩
      · obtain ⟨w, hw⟩ := (eX 0).e hE
        exact ⟨w, fun pre rest n => ⟨(mapLoop_turns_key hw pre rest n).1, trivial⟩⟩
      · obtain ⟨w, k, hk⟩ := (hX 0).d hd
        obtain ⟨w', hw'⟩ := (eY 0).e hE
        exact ⟨w ++ w', fun pre rest n => ⟨(mapLoop_turns_value hk hw' pre rest n).1, trivial⟩⟩
    · rintro (⟨h0, hE⟩ | ⟨h2, hs, hE⟩)
      · obtain ⟨c, rfl⟩ := Nat.exists_eq_succ_of_ne_zero h0
        rcases hE with hE | ⟨hd, hE⟩ | ⟨hd, hE⟩
        · obtain ⟨w, hw⟩ := (eX 0).l hE
          exact ⟨w, fun pre rest n => (mapLoop_turns_key hw pre rest n).imp_right fun h => h (.inl fun _ => id)⟩
        · obtain ⟨w, k, hk⟩ := (hX 0).d hd
          obtain ⟨w', hw'⟩ := (eY 0).l hE
          exact ⟨w ++ w', fun pre rest n => (mapLoop_turns_value hk hw' pre rest n).imp_right fun h =>
            h (.inl fun _ => id)⟩
        · obtain ⟨w, k, hk⟩ := (hX 0).s hd
          obtain ⟨w', hw'⟩ := (eY 0).e hE
          exact ⟨w ++ w', fun pre rest n => (mapLoop_turns_value hk hw' pre rest n).imp_right fun h =>
            h (.inr (.inl fun _ => id))⟩
      · obtain ⟨c, rfl⟩ : ∃ c, len = c + 2 := ⟨len - 2, by omega⟩
        have hd : Dk := hs.elim (fun h => hK.owning (hK.spilling h.1)) (·.1)
        have : ∃ w w' k v P Q, Gives (atItem 0 K) w k P ∧ Gives (atItem 0 V) w' v Q ∧
            ∀ x y, P x → Q y → x.Spills ∨ y.Spills := by
          rcases hs with ⟨hs, hd⟩ | ⟨hd, hs⟩
          · obtain ⟨w, k, hk⟩ := (hX 0).s hs
            obtain ⟨w', v, hv⟩ := (hY 0).d hd
            exact ⟨w, w', k, v, _, _, hk, hv, fun _ _ h _ => .inl h⟩
          · obtain ⟨w, k, hk⟩ := (hX 0).d hd
            obtain ⟨w', v, hv⟩ := (hY 0).s hs
            exact ⟨w, w', k, v, _, _, hk, hv, fun _ _ _ h => .inr h⟩
        obtain ⟨w, w', k, v, P, Q, hk, hv, hpq⟩ := this
        -- The second entry is rejected.
        have next : ∃ w₂, ∀ (m : MapVal α β) (h : Holdings) pre rest n,
            (trackMapLoop K V (c + 1) 1 m h ⟨pre ++ (w₂ ++ rest), pre.length⟩ n).Err ∧ (Holdings.kept h ≠ [] →
              (trackMapLoop K V (c + 1) 1 m h ⟨pre ++ (w₂ ++ rest), pre.length⟩ n).lost ≠ []) := by
          rcases hE with hE | hE
          · obtain ⟨w, hw⟩ := (eX 1).e hE
            exact ⟨w, fun m h pre rest n => (mapLoop_turns_key hw pre rest n).imp_right fun h k => h (.inr k)⟩
          · obtain ⟨w, k, hk⟩ := (hX 1).d hd
            obtain ⟨w', hw'⟩ := (eY 1).e hE
            exact ⟨w ++ w', fun m h pre rest n => (mapLoop_turns_value hk hw' pre rest n).imp_right fun h k =>
              h (.inr (.inr k))⟩
        obtain ⟨w₂, next⟩ := next
        refine ⟨w ++ w' ++ w₂, fun pre rest n => ?_⟩
        obtain ⟨x, y, hx, hy, e1, e2, e3, e4, e5⟩ := mapLoop_gives hk hv (c + 1) pre (w₂ ++ rest) n
        have h3 := next ⟨[(k, v)], by simp⟩ [(⟨x.owned, x.kept⟩, ⟨y.owned, y.kept⟩)] (pre ++ (w ++ w')) rest y.next
        rw [List.length_append, List.append_assoc pre] at h3
        rw [List.append_assoc (w ++ w')]
        refine ⟨?_, e5.mpr ?_⟩
        · obtain ⟨e, he⟩ := h3.1
          exact ⟨e, e1.trans he⟩
        · rcases hpq x y hx hy with (h | h) | (h | h)
          · exact .inr (.inr (h3.2 (by simp [Holdings.kept, h])))
          · exact .inl h
          · exact .inr (.inr (h3.2 (by simp [Holdings.kept, h])))
          · exact .inr (.inl h)
  refine (prefixed fun n => bind (Acct.buffer n) (buffer n) fun _ => loop n).congr ?_ ?_
  · constructor
    · rintro ⟨n, -, h | ⟨-, -, h⟩⟩
      · exact h.elim
      · exact h
    · exact fun h => ⟨1, by decide, .inr ⟨trivial, by decide, h⟩⟩
  · constructor
    · rintro ⟨n, -, h | ⟨-, ⟨-, h | h | h⟩ | ⟨-, h⟩⟩ | ⟨h, -⟩⟩
      · exact h.elim
      · exact .inl h
      · exact .inr (.inl h)
      · exact .inr (.inr (.inl h))
      · exact .inr (.inr (.inr h))
      · exact h.elim
    · rintro (h | h | h | h)
      · exact ⟨1, by decide, .inr (.inl ⟨trivial, .inl ⟨by decide, .inl h⟩⟩)⟩
      · exact ⟨1, by decide, .inr (.inl ⟨trivial, .inl ⟨by decide, .inr (.inl h)⟩⟩)⟩
      · exact ⟨1, by decide, .inr (.inl ⟨trivial, .inl ⟨by decide, .inr (.inr h)⟩⟩)⟩
      · exact ⟨2, by decide, .inr (.inl ⟨trivial, .inr ⟨by decide, h⟩⟩)⟩

end ErrAcct

end map

section set
variable [DecidableEq α] {K : Track α} {D O S F X E L : Prop}
variable {c i : Nat} {s : SetVal α} {own kept : List Nat} {I : Input} {n : Nat}

theorem setLoop_key_err (hx : (atItem i K I n).Bad) :
    (trackSetLoop K (c + 1) i s own kept I n).Err ↔ (atItem i K I n).Err := by
  unfold trackSetLoop
  dsimp only [atItem] at hx ⊢
  generalize K.mapErr (fun e => .badItem (.item i e)) I n = x at hx ⊢
  unfold Tracked.Err
  cases hr : x.res with
  | ok a => exact absurd hr (hx a)
  | err e => simp [Tracked.stop]
  | panic e => simp [Tracked.stop]
  | ub e => simp [Tracked.stop]

/-- What the loop of a set can do with errors, at most. -/
theorem setLoop_err_upper (hK : Acct K D O S F X) (eK : ErrAcct K E L) :
    ∀ (c i : Nat) (s : SetVal α) (own kept : List Nat) (I : Input) (n : Nat),
      (trackSetLoop K c i s own kept I n).Err → (c ≠ 0 ∧ E) ∧
        ((trackSetLoop K c i s own kept I n).lost ≠ [] → L ∨ (kept ≠ [] ∨ 2 ≤ c ∧ S) ∧ E)
  | 0, i, s, own, kept, I, n, ⟨e, he⟩ => by cases he
  | c + 1, i, s, own, kept, I, n, hb => by
    have hX := (hK.mapErr (fun e => .badItem (.item i e))).toUpper
    have eX := eK.mapErr (fun e => .badItem (.item i e))
    rcases (atItem i K I n).ok_or_bad with ⟨k, hx⟩ | hx
    · obtain ⟨x1, -, x3⟩ := hX.ok _ _ _ hx
      obtain ⟨s', own', kept', k1, -, -, e1, -, -, e4, e5, -⟩ :=
        setLoop_entry (c := c) (s := s) (own := own) (kept := kept) hx
      obtain ⟨e, he⟩ := hb
      obtain ⟨⟨h0, hE⟩, z2⟩ := setLoop_err_upper hK eK c (i + 1) s' own' kept' _ _ ⟨e, e1.symm.trans he⟩
      have h2 : 2 ≤ c + 1 := by omega
      refine ⟨⟨Nat.succ_ne_zero c, hE⟩, fun hl => ?_⟩
      rcases e5 hl with h | h
      · exact .inr ⟨.inr ⟨h2, x3 h⟩, hE⟩
      · rcases z2 h with h | ⟨h | h, -⟩
        · exact .inl h
        · exact .inr ⟨(k1 h).elim .inl fun h => .inr ⟨h2, x3 (.inl h)⟩, hE⟩
        · exact .inr ⟨.inr ⟨h2, h.2⟩, hE⟩
    · obtain ⟨x1, x2⟩ := eX.up _ _ ((setLoop_key_err hx).mp hb)
      refine ⟨⟨Nat.succ_ne_zero c, x1⟩, fun hl => ?_⟩
      rw [(setLoop_key hx).2] at hl
      exact (append_nonempty.mp hl).elim (fun h => .inl (x2 h)) fun h => .inr ⟨.inl h, x1⟩

/-- A key that is rejected, in a set with keys. -/
theorem setLoop_turns_key {w : List Byte} {P : Tracked α → Prop} (hw : Turns (atItem i K) w P)
    (pre rest : List Byte) (n : Nat) :
    (trackSetLoop K (c + 1) i s own kept ⟨pre ++ (w ++ rest), pre.length⟩ n).Err ∧
    ((∀ x, P x → x.lost ≠ []) ∨ kept ≠ [] →
      (trackSetLoop K (c + 1) i s own kept ⟨pre ++ (w ++ rest), pre.length⟩ n).lost ≠ []) := by
  have hx := (hw pre rest n).1.bad
  refine ⟨(setLoop_key_err hx).mpr (hw pre rest n).1, fun hl => ?_⟩
  rw [(setLoop_key hx).2]
  exact append_nonempty.mpr (hl.imp_left fun hl => hl _ (hw pre rest n).2)

namespace ErrAcct

theorem hashSet (hK : Acct K D O S F X) (eK : ErrAcct K E L) :
    ErrAcct (trackHashSet K) E (L ∨ S ∧ E) := by
  have hX := fun i => hK.mapErr (fun e => .badItem (.item i e))
  have eX := fun i => eK.mapErr (fun e => .badItem (.item i e))
  have loop : ∀ len, ErrAcct (trackSetLoop K len 0 ⟨[], List.nodup_nil⟩ [] []) (len ≠ 0 ∧ E)
      (len ≠ 0 ∧ L ∨ 2 ≤ len ∧ S ∧ E) := by
    intro len
    refine ⟨fun I n hb => ?_, ?_, ?_⟩
    · obtain ⟨⟨h0, hE⟩, hl⟩ := setLoop_err_upper hK eK len 0 ⟨[], List.nodup_nil⟩ [] [] I n hb
      refine ⟨⟨h0, hE⟩, fun h' => ?_⟩
      rcases hl h' with h | ⟨h | ⟨h2, h⟩, hE⟩
      · exact .inl ⟨h0, h⟩
      · exact absurd rfl h
      · exact .inr ⟨h2, h, hE⟩
    · rintro ⟨h0, hE⟩
      obtain ⟨c, rfl⟩ := Nat.exists_eq_succ_of_ne_zero h0
      obtain ⟨w, hw⟩ := (eX 0).e hE
      exact ⟨w, fun pre rest n => ⟨(setLoop_turns_key hw pre rest n).1, trivial⟩⟩
    · rintro (⟨h0, hE⟩ | ⟨h2, hs, hE⟩)
      · obtain ⟨c, rfl⟩ := Nat.exists_eq_succ_of_ne_zero h0
        obtain ⟨w, hw⟩ := (eX 0).l hE
        exact ⟨w, fun pre rest n => (setLoop_turns_key hw pre rest n).imp_right fun h => h (.inl fun _ => id)⟩
      · obtain ⟨c, rfl⟩ : ∃ c, len = c + 2 := ⟨len - 2, by omega⟩
        obtain ⟨w, k, hk⟩ := (hX 0).s hs
        obtain ⟨w₂, hw⟩ := (eX 1).e hE
        refine ⟨w ++ w₂, fun pre rest n => ?_⟩
        obtain ⟨h1, h2, h3⟩ := by
          have := hk pre (w₂ ++ rest) n
          rwa [← List.append_assoc w] at this
        obtain ⟨s', own', kept', -, -, k3, e1, -, -, -, -, e6⟩ :=
          setLoop_entry (c := c + 1) (s := ⟨[], List.nodup_nil⟩) (own := []) (kept := []) h1
        have h4 := setLoop_turns_key (c := c) (s := s') (own := own') (kept := kept') hw (pre ++ w) rest
          (atItem 0 K ⟨pre ++ (w ++ w₂ ++ rest), pre.length⟩ n).next
        rw [List.length_append, List.append_assoc pre, ← List.append_assoc w, ← h2] at h4
        refine ⟨?_, e6 ?_⟩
        · obtain ⟨e, he⟩ := h4.1
          exact ⟨e, e1.trans he⟩
        · exact h3.elim (fun h => .inr (h4.2 (.inr (k3 (by simp) h)))) .inl
  refine (prefixed fun n => bind (Acct.buffer n) (buffer n) fun _ => loop n).congr ?_ ?_
  · constructor
    · rintro ⟨n, -, h | ⟨-, -, h⟩⟩
      · exact h.elim
      · exact h
    · exact fun h => ⟨1, by decide, .inr ⟨trivial, by decide, h⟩⟩
  · constructor
    · rintro ⟨n, -, h | ⟨-, ⟨-, h⟩ | ⟨-, h⟩⟩ | ⟨h, -⟩⟩
      · exact h.elim
      · exact .inl h
      · exact .inr h
      · exact h.elim
    · rintro (h | h)
      · exact ⟨1, by decide, .inr (.inl ⟨trivial, .inl ⟨by decide, h⟩⟩)⟩
      · exact ⟨2, by decide, .inr (.inl ⟨trivial, .inr ⟨by decide, h⟩⟩)⟩

end ErrAcct

end set

namespace ErrAcct
variable {D O S F L₀ E L E' L' : Prop}

/-- A choice of a sign. -/
theorem sign {f : Bool → Track β} {E L : Bool → Prop} (h : ∀ b, ErrAcct (f b) (E b) (L b)) :
    ErrAcct (Track.bind (Track.of decBool) f) (E false ∨ E true) (L false ∨ L true) := by
  have key : ∀ P : Bool → Prop, (∃ b, True ∧ P b) ↔ P false ∨ P true := fun P => by
    constructor
    · rintro ⟨b, -, h⟩
      cases b
      · exact .inl h
      · exact .inr h
    · rintro (h | h)
      · exact ⟨false, trivial, h⟩
      · exact ⟨true, trivial, h⟩
  refine (choose (E := False) (A := fun _ => True) (fun _ _ _ => trivial) (fun b _ => ?_)
    ((of decBool_parses).congr (by simp) Iff.rfl) fun b _ => h b).congr ((by simp : _ ↔ _).trans (key E)) (key L)
  exact Ty.exists_yields .bool trivial ⟨[if b then 1 else 0], 0⟩ b (by cases b <;> rfl)

/-- A choice of one octet. -/
theorem octet {f : Nat → Track β} {E L : Nat → Prop} (h : ∀ b, ErrAcct (f b) (E b) (L b)) :
    ErrAcct (Track.bind (Track.of decU8) f) (∃ b, b < 256 ∧ E b) (∃ b, b < 256 ∧ L b) := by
  refine (choose (E := False) (A := fun b => b < 256) (fun I a ha => ?_) (fun b hb => ?_)
    ((of decU8_parses).congr (by simp) Iff.rfl) fun b _ => h b).congr (by simp) Iff.rfl
  · have := decU8_ends hsOverflow (U := anyUb) I
    rw [ha] at this
    exact this
  · exact ⟨_, decU8_decodes b hb⟩

theorem bound {m : Track α} (h : ErrAcct m E L) : ErrAcct (trackBound m) True L := by
  refine (octet fun b => .ite (c := b = 0) (fun _ => (h.mapErr _).map _) fun _ =>
    .ite (c := b = 1) (fun _ => (h.mapErr _).map _) fun _ => .ite (c := b = 2) (fun _ => .pure' _) fun _ =>
      .fail _).congr ?_ ?_
  · exact ⟨fun _ => trivial, fun _ => ⟨3, by decide, trivial⟩⟩
  · constructor
    · rintro ⟨b, -, h⟩
      split at h
      · exact h
      · split at h
        · exact h
        · split at h
          · exact h.elim
          · exact h.elim
    · exact fun h => ⟨0, by decide, h⟩

theorem option {m : Track α} (h : ErrAcct m E L) : ErrAcct (trackOption m) E L :=
  (sign fun b => .ite (c := b = true) (fun _ => h.map _) fun _ => .pure' _).congr (by simp) (by simp)

theorem result {m : Track α} {m' : Track β} (h : ErrAcct m E L) (h' : ErrAcct m' E' L') :
    ErrAcct (trackResult m m') (E ∨ E') (L ∨ L') :=
  (sign fun b => .ite (c := b = true) (fun _ => (h'.mapErr _).map _) fun _ => (h.mapErr _).map _).congr
    (by simp) (by simp)

/-- Both ends of a range. -/
theorem twice {m : Track α} {g : α → α → β} (h : Acct m D O S F L₀) (he : ErrAcct m E L) :
    ErrAcct (Track.bind m fun a => m.map (g a)) E (L ∨ S ∧ E) := by
  refine (bind h he fun a => he.map (g a)).congr ?_ ?_
  · exact ⟨fun h => h.elim id (·.2), .inl⟩
  · exact ⟨fun h => h.elim .inl fun h => h.elim (fun h => .inl h.2) .inr,
      fun h => h.elim .inl fun h => .inr (.inr h)⟩

theorem boxed {m : Track α} (h : Acct m D O S F L₀) (he : ErrAcct m E L) (b : Bool) :
    ErrAcct (Track.bind m fun v => if b then Track.alloc v else Track.of (pure v)) E L := by
  cases b with
  | true => exact (bind h he fun v => alloc v).congr (by simp) (by simp)
  | false => exact (bind h he fun v => pure' v).congr (by simp) (by simp)

/-- An error somewhere. -/
theorem rejects {d : Dec α} {A : List Byte → α → Prop} {R : List Byte → DecErr → Prop} (h : Parses d A R)
    (I : Input) (e : DecErr) (he : (d I).1 = .err e) : ∃ bs e, R bs e :=
  ((of h).up I 0 ⟨e, he⟩).1

theorem text (k : StrKind) : ErrAcct (Ty.str k).track True False := by
  refine (choose (E := True) (A := fun a => ∃ w, Yields decString w (.ok a))
    (fun I a h => (Ty.str k).exists_yields trivial I a h) (fun a h => h)
    ((of decString_parses).congr ⟨fun _ => trivial, fun _ => ?_⟩ Iff.rfl)
    (fun s _ => (buffer s.val.length).map fun _ => s)).congr (by simp) (by simp)
  exact rejects decString_parses ⟨[1, 0, 0x80], 0⟩ _ rfl

theorem cText (k : CStrKind) : ErrAcct (Ty.cStr k).track True False := by
  refine (choose (E := True) (A := fun a => ∃ w, Yields decCString w (.ok a))
    (fun I a h => (Ty.cStr k).exists_yields trivial I a h) (fun a h => h)
    ((of decCString_parses).congr ⟨fun _ => trivial, fun _ => ?_⟩ Iff.rfl)
    (fun s _ => alloc s)).congr (by simp) (by simp)
  exact rejects decCString_parses ⟨[1, 0, 0], 0⟩ _ rfl

end ErrAcct

/-- Types that do not allocate. -/
theorem Ty.err_leaf (t : Ty) (hw : t.WF) (h : t.track = Track.of t.decode)
    (hr : Refusing t ↔ ∃ bs e, Rejects t bs e) : ErrAcct t.track (Refusing t) False := by
  rw [h]
  exact (ErrAcct.of (t.decode_parses hw)).congr hr.symm Iff.rfl

theorem refusingVariants_any (r : Repr) (ex : List (Option Nat)) : (vs : Variants) → (j : Nat) →
    (AnyVar RefusingFields r ex vs j ↔ RefusingVariants r ex vs j)
  | .nil, _ => Iff.rfl
  | .cons _ fs vs, j => or_congr Iff.rfl (refusingVariants_any r ex vs (j + 1))

theorem leakyOnErrorVariants_any (r : Repr) (ex : List (Option Nat)) : (vs : Variants) → (j : Nat) →
    (AnyVar LeakyOnErrorFields r ex vs j ↔ LeakyOnErrorVariants r ex vs j)
  | .nil, _ => Iff.rfl
  | .cons _ fs vs, j => or_congr Iff.rfl (leakyOnErrorVariants_any r ex vs (j + 1))

/-- Something of the variant with this discriminant, or there is none. -/
theorem varOn_or {P : Fields → Prop} {ex : List (Option Nat)} {x : Int} : (vs : Variants) →
    (prev : Option Nat) → (j : Nat) → ex.drop j = explicitDiscs vs →
    (prev = if j = 0 then none else some (discOf ex (j - 1))) → (vs.discs prev).Nodup →
    (VarOn P True vs prev x ↔ VarOn P False vs prev x ∨ ∀ k < variantCount vs, x ≠ discOf ex (j + k))
  | .nil, _, _, _, _, _ => ⟨fun _ => .inr fun k hk => absurd hk (Nat.not_lt_zero k), fun _ => trivial⟩
  | .cons d fs vs, prev, j, h, hp, hn => by
    obtain ⟨hd, hdrop, hp', hn', hne⟩ := disc_ne h hp hn
    unfold VarOn
    by_cases hx : x = (nextDisc prev d : Int)
    · rw [if_pos hx, if_pos hx]
      refine ⟨.inl, fun h => h.elim id fun h => ?_⟩
      exact absurd (hx.trans (congrArg Nat.cast hd.symm)) (h 0 (Nat.succ_pos _))
    · rw [if_neg hx, if_neg hx, varOn_or vs _ (j + 1) hdrop hp' hn']
      refine or_congr_right ⟨fun h k hk => ?_, fun h k hk => ?_⟩
      · cases k with
        | zero => rw [Nat.add_zero, hd]; exact hx
        | succ k =>
          rw [show j + (k + 1) = j + 1 + k by omega]
          exact h k (Nat.lt_of_succ_lt_succ hk)
      · rw [show j + 1 + k = j + (k + 1) by omega]
        exact h (k + 1) (Nat.succ_lt_succ hk)

mutual

theorem Ty.err_acct : (t : Ty) → t.WF → ErrAcct t.track (Refusing t) (LeakyOnError t)
  | .wrap w t, hw => ErrAcct.boxed (t.track_acct hw) (t.err_acct hw) w.boxes
  | .array t n, hw => ErrAcct.items (t.track_acct hw) (t.err_acct hw) n 0
  | .seq .linkedList t, hw => ErrAcct.list (t.track_acct hw) (t.err_acct hw)
  | .seq .vec t, hw => ErrAcct.vec (t.track_acct hw) (t.err_acct hw)
  | .seq .slice t, hw => ErrAcct.vec (t.track_acct hw) (t.err_acct hw)
  | .hashMap k v, hw => @ErrAcct.hashMap _ _ k.decEq _ _ _ _ _ _ _ _ _ _ _ _ _ _ _ _
      (k.track_acct hw.1) (v.track_acct hw.2) (k.err_acct hw.1) (v.err_acct hw.2)
  | .hashSet k, hw => @ErrAcct.hashSet _ k.decEq _ _ _ _ _ _ _ _ (k.track_acct hw) (k.err_acct hw)
  | .option t, hw => (t.err_acct hw).option
  | .result t e, hw => (t.err_acct hw.1).result (e.err_acct hw.2)
  | .bound t, hw => (t.err_acct hw).bound
  | .range t, hw => ErrAcct.twice (t.track_acct hw) (t.err_acct hw)
  | .rangeInclusive t, hw => ErrAcct.twice (t.track_acct hw) (t.err_acct hw)
  | .lock _ t, hw => (t.err_acct hw).map _
  | .refCell t, hw => (t.err_acct hw).map _
  | .sizedSlice t n, hw => ErrAcct.sized (t.track_acct hw) (t.err_acct hw) n
  | .tuple fs, hw => fs.err_acct id hw
  | .struct fs, hw => fs.err_acct _ hw
  | .enum r vs, hw => by
    refine (ErrAcct.choose (E := False) (A := fun x => r.InRange x ∧ ReprEncodable r x) (fun I a ha => ?_)
      (fun x hx => ⟨_, decRepr_yields_disc r x hx.2 hx.1⟩) ((ErrAcct.of (decRepr_parses r)).congr (by simp) Iff.rfl)
      (fun x _ => vs.err_acct none x hw.2.2)).congr ?_ ?_
    · have := decRepr_ends hsOverflow (U := anyUb) r I
      rw [ha] at this
      exact this
    · rw [false_or]
      show _ ↔ _ ∨ _
      rw [← refusingVariants_any, ← anyVar_iff hw]
      constructor
      · rintro ⟨x, hx, h⟩
        rcases (varOn_or vs none 0 rfl (by simp) hw.1).mp h with h | h
        · exact .inr ⟨x, hx, h⟩
        · refine .inl ⟨x, hx.2, hx.1, fun j hj => ?_⟩
          have := h j (explicitDiscs_length vs ▸ hj)
          rwa [Nat.zero_add] at this
      · rintro (⟨x, h1, h2, h⟩ | ⟨x, hx, h⟩)
        · refine ⟨x, ⟨h2, h1⟩, (varOn_or vs none 0 rfl (by simp) hw.1).mpr (.inr fun k hk => ?_)⟩
          rw [Nat.zero_add]
          exact h k (explicitDiscs_length vs ▸ hk)
        · exact ⟨x, hx, (varOn_or vs none 0 rfl (by simp) hw.1).mpr (.inl h)⟩
    · exact (anyVar_iff hw).trans (leakyOnErrorVariants_any _ _ vs 0)
  | .num k, hw => (Ty.num k).err_leaf hw rfl (by simp [Refusing, Rejects])
  | .bool, hw => Ty.bool.err_leaf hw rfl (by simp [Refusing, Rejects])
  | .char, hw => Ty.char.err_leaf hw rfl ⟨fun _ => ⟨_, _, 0x110000, by decide, .inr (by decide), rfl, rfl⟩,
      fun _ => trivial⟩
  | .usize, hw => Ty.usize.err_leaf hw rfl (by simp [Refusing, Rejects])
  | .isize, hw => Ty.isize.err_leaf hw rfl (by simp [Refusing, Rejects])
  | .nonZero r, hw => (Ty.nonZero r).err_leaf hw rfl ⟨fun _ => ⟨_, _, rfl, rfl⟩, fun _ => trivial⟩
  | .unit _, _ => ErrAcct.pure' _
  | .infallible, _ => ErrAcct.never fun I n ⟨e, h⟩ => by cases h
  | .duration, hw => Ty.duration.err_leaf hw rfl (by simp [Refusing, Rejects])
  | .systemTime p, hw => (Ty.systemTime p).err_leaf hw rfl (by
      have h1 := p.lo_le
      have h2 := p.le_hi
      constructor
      · rintro (h | h)
        · refine ⟨_, _, -(2 : Int) ^ 63, by omega, fun h' => ?_, rfl, rfl⟩
          omega
        · refine ⟨_, _, (2 : Int) ^ 63 - 1, by omega, fun h' => ?_, rfl, rfl⟩
          omega
      · rintro ⟨bs, e, x, hx, h, -⟩
        show _ ∨ _
        unfold nanosPerSec at *
        omega)
  | .ipv4, hw => Ty.ipv4.err_leaf hw rfl (by simp [Refusing, Rejects])
  | .ipv6, hw => Ty.ipv6.err_leaf hw rfl (by simp [Refusing, Rejects])
  | .ipAddr, hw => Ty.ipAddr.err_leaf hw rfl
      ⟨fun _ => ⟨_, _, (5 : UInt8), by decide, by decide, rfl, rfl⟩, fun _ => trivial⟩
  | .socketAddrV4, hw => Ty.socketAddrV4.err_leaf hw rfl (by simp [Refusing, Rejects])
  | .socketAddrV6, hw => Ty.socketAddrV6.err_leaf hw rfl (by simp [Refusing, Rejects])
  | .socketAddr, hw => Ty.socketAddr.err_leaf hw rfl
      ⟨fun _ => ⟨_, _, (5 : UInt8), by decide, by decide, rfl, rfl⟩, fun _ => trivial⟩
  | .str k, _ => ErrAcct.text k
  | .cStr k, _ => ErrAcct.cText k
  | .sizedStr n, hw => (Ty.sizedStr n).err_leaf hw rfl ⟨fun _ => by
      cases n with
      | zero => exact ErrAcct.rejects ((Ty.sizedStr 0).decode_parses hw) ⟨[1, 0, 0x80], 0⟩ _ rfl
      | succ n => exact ⟨_, _, [0x80], by decide, rfl, .inr ⟨by simp, 0, 0x80, (check_iff _ 0).mp (by decide), rfl, rfl⟩⟩, fun _ => trivial⟩

theorem Fields.err_acct : (fs : Fields) → (g : DecErr → DecErr) → fs.WF →
    ErrAcct (fs.track g) (RefusingFields fs) (LeakyOnErrorFields fs)
  | .nil, _, _ => ErrAcct.pure' _
  | .cons t fs, g, hw => ErrAcct.bind ((t.track_acct hw.1).mapErr g) ((t.err_acct hw.1).mapErr g)
      fun v => (fs.err_acct g hw.2).map _

theorem Variants.err_acct : (vs : Variants) → (prev : Option Nat) → (x : Int) → vs.WF →
    ErrAcct (vs.track prev x) (VarOn RefusingFields True vs prev x) (VarOn LeakyOnErrorFields False vs prev x)
  | .nil, _, _, _ => ErrAcct.fail _
  | .cons d fs vs, prev, x, hw =>
    ErrAcct.ite (fun _ => (fs.err_acct _ hw.1).map _) fun _ => (vs.err_acct _ x hw.2).map _

end

end Oct
