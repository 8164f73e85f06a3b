import Verif.Spec.Leaks
import Verif.Proofs.Track
import Verif.Proofs.Reserve
import Verif.Proofs.Recursive
/- When decoding loses allocations: the decoders that types are composed of. -/
namespace Oct
open Spec
set_option linter.unusedVariables false
variable {α β κ : Type}

/-- The value has allocations, or some are lost. -/
def Tracked.Owns (x : Tracked α) : Prop := x.owned ≠ [] ∨ x.kept ≠ [] ∨ x.lost ≠ []

/-- Allocations are in the cells of sized slices, or lost. -/
def Tracked.Spills (x : Tracked α) : Prop := x.kept ≠ [] ∨ x.lost ≠ []

/-- There is no value. -/
def Tracked.Bad (x : Tracked α) : Prop := ∀ a, x.res ≠ .ok a

theorem Tracked.ok_or_bad (x : Tracked α) : (∃ a, x.res = .ok a) ∨ x.Bad := by
  cases h : x.res with
  | ok a => exact .inl ⟨a, rfl⟩
  | err e => exact .inr fun a ha => by rw [h] at ha; cases ha
  | panic e => exact .inr fun a ha => by rw [h] at ha; cases ha
  | ub e => exact .inr fun a ha => by rw [h] at ha; cases ha

/-- Wherever these octets are, they are decoded, with such an account. -/
def Gives (m : Track α) (w : List Byte) (a : α) (P : Tracked α → Prop) : Prop :=
  ∀ pre rest n, (m ⟨pre ++ (w ++ rest), pre.length⟩ n).res = .ok a ∧
    (m ⟨pre ++ (w ++ rest), pre.length⟩ n).rest = ⟨pre ++ (w ++ rest), pre.length + w.length⟩ ∧
    P (m ⟨pre ++ (w ++ rest), pre.length⟩ n)

/-- There are values, values with allocations and so on (see `Acct`) at most if it is said so. -/
structure Upper (m : Track α) (D O S F L : Prop) : Prop where
  ok : ∀ I n a, (m I n).res = .ok a → D ∧ ((m I n).Owns → O) ∧ ((m I n).Spills → S)
  bad : ∀ I n, (m I n).Bad → F ∧ ((m I n).lost ≠ [] → L)

/-- What is known of a decoding with an account: whether there are values (`D`), values with
allocations (`O`), values with allocations in sized slices (`S`), failures (`F`), and failures that lose
something (`L`). -/
structure Acct (m : Track α) (D O S F L : Prop) : Prop extends Upper m D O S F L where
  d : D → ∃ w a, Gives m w a fun _ => True
  o : O → ∃ w a, Gives m w a Tracked.Owns
  s : S → ∃ w a, Gives m w a Tracked.Spills
  f : F → ∀ pre n, (m ⟨pre, pre.length⟩ n).Bad
  l : L → ∃ w, ∀ pre n, (m ⟨pre ++ w, pre.length⟩ n).Bad ∧ (m ⟨pre ++ w, pre.length⟩ n).lost ≠ []
  stays : ∀ pre n a, (m ⟨pre, pre.length⟩ n).res = .ok a →
    (m ⟨pre, pre.length⟩ n).rest = ⟨pre, pre.length⟩

theorem append_nonempty {γ : Type} {l l' : List γ} : l ++ l' ≠ [] ↔ l ≠ [] ∨ l' ≠ [] := by
  rw [Ne, List.append_eq_nil_iff, Classical.not_and_iff_not_or_not]

/-- What comes after, if it succeeds. -/
theorem after_ok {raw : Bool} {x : Tracked α} {y : Tracked β} {b : β} (h : y.res = .ok b) :
    Track.after raw x y = ⟨.ok b, y.rest, y.next, x.owned ++ y.owned, x.kept ++ y.kept,
      x.freed ++ y.freed, x.lost ++ y.lost⟩ := by
  unfold Track.after
  rw [h]

/-- What comes after, if it fails. -/
theorem after_bad {raw : Bool} {x : Tracked α} {y : Tracked β} (h : y.Bad) :
    (Track.after raw x y).Bad ∧ (Track.after raw x y).lost
      = x.lost ++ y.lost ++ x.kept ++ (if raw then x.owned else []) := by
  unfold Track.after
  cases hr : y.res with
  | ok a => exact absurd hr (h a)
  | err e => exact ⟨fun a ha => (by cases ha), rfl⟩
  | panic e => exact ⟨fun a ha => (by cases ha), rfl⟩
  | ub e => exact ⟨fun a ha => (by cases ha), rfl⟩

theorem bindWith_ok {raw : Bool} {m : Track α} {f : α → Track β} {I : Input} {n : Nat} {a : α}
    (h : (m I n).res = .ok a) :
    Track.bindWith raw m f I n = Track.after raw (m I n) (f a (m I n).rest (m I n).next) := by
  unfold Track.bindWith
  simp only [h]

theorem bindWith_bad {raw : Bool} {m : Track α} {f : α → Track β} {I : Input} {n : Nat}
    (h : (m I n).Bad) : (Track.bindWith raw m f I n).Bad ∧
      (Track.bindWith raw m f I n).lost = (m I n).lost := by
  unfold Track.bindWith
  dsimp only
  unfold Tracked.Bad at h ⊢
  generalize m I n = x at h ⊢
  cases hr : x.res with
  | ok a => exact absurd hr (h a)
  | err e => dsimp only; exact ⟨fun a ha => (by cases ha), rfl⟩
  | panic e => dsimp only; exact ⟨fun a ha => (by cases ha), rfl⟩
  | ub e => dsimp only; exact ⟨fun a ha => (by cases ha), rfl⟩

namespace Acct
variable {D O S F L D' O' S' F' L' : Prop}

theorem owning {m : Track α} (h : Acct m D O S F L) (ho : O) : D := by
  obtain ⟨w, a, hw⟩ := h.o ho
  exact (h.ok _ _ _ (hw [] [] 0).1).1

theorem spilling {m : Track α} (h : Acct m D O S F L) (hs : S) : O := by
  obtain ⟨w, a, hw⟩ := h.s hs
  exact (h.ok _ _ _ (hw [] [] 0).1).2.1 (.inr (hw [] [] 0).2.2)

theorem leaking {m : Track α} (h : Acct m D O S F L) (hl : L) : F := by
  obtain ⟨w, hw⟩ := h.l hl
  exact (h.bad _ _ (hw [] 0).1).1

/-- If there is nothing left to read, it fails or reads nothing. -/
theorem blank {m : Track α} (h : Acct m D O S F L) (hf : ¬ F) (pre : List Byte) (n : Nat) :
    ∃ a, (m ⟨pre, pre.length⟩ n).res = .ok a ∧ (m ⟨pre, pre.length⟩ n).rest = ⟨pre, pre.length⟩ := by
  rcases (m ⟨pre, pre.length⟩ n).ok_or_bad with ⟨a, ha⟩ | hb
  · exact ⟨a, ha, h.stays _ _ _ ha⟩
  · exact absurd (h.bad _ _ hb).1 hf

theorem congr {m : Track α} (h : Acct m D O S F L) (hd : D ↔ D') (ho : O ↔ O') (hs : S ↔ S')
    (hf : F ↔ F') (hl : L ↔ L') : Acct m D' O' S' F' L' := by
  rw [← propext hd, ← propext ho, ← propext hs, ← propext hf, ← propext hl]; exact h

theorem of (d : Dec α) (hl : Local d) (hd : ∀ I a, (d I).1 = .ok a → D)
    (hD : D → ∃ w a, Yields d w (.ok a)) (hF : EatsDec d) : Acct (Track.of d) D False False True False where
  ok I n a h := ⟨hd I a h, fun h => by simp [Tracked.Owns, Track.of] at h,
    fun h => by simp [Tracked.Spills, Track.of] at h⟩
  bad I n h := ⟨trivial, fun h => h rfl⟩
  d h := by
    obtain ⟨w, a, h⟩ := hD h
    exact ⟨w, a, fun pre rest n => ⟨congrArg Prod.fst (h pre rest), congrArg Prod.snd (h pre rest), trivial⟩⟩
  o h := h.elim
  s h := h.elim
  f _ pre n a h := by
    have := hF ⟨pre, pre.length⟩ (Nat.le_refl _) a (d ⟨pre, pre.length⟩).2 (Prod.ext h rfl)
    simp only [Input.remaining, Input.capacity, Input.position] at this
    omega
  l h := h.elim
  stays pre n a h := by
    have := hF ⟨pre, pre.length⟩ (Nat.le_refl _) a (d ⟨pre, pre.length⟩).2 (Prod.ext h rfl)
    simp only [Input.remaining, Input.capacity, Input.position] at this
    omega

theorem pure' (a : α) : Acct (Track.of (pure a)) True False False False False where
  ok I n a h := ⟨trivial, fun h => by simp [Tracked.Owns, Track.of] at h,
    fun h => by simp [Tracked.Spills, Track.of] at h⟩
  bad I n h := absurd rfl (h a)
  d _ := ⟨[], a, fun pre rest n => ⟨rfl, rfl, trivial⟩⟩
  o h := h.elim
  s h := h.elim
  f h := h.elim
  l h := h.elim
  stays pre n a h := rfl

/-- Always fails, without having read anything. -/
theorem stop (d : Dec α) (h : ∀ I a, (d I).1 ≠ .ok a) : Acct (Track.of d) False False False True False where
  ok I n a h' := absurd h' (h I a)
  bad I n h := ⟨trivial, fun h => h rfl⟩
  d h := h.elim
  o h := h.elim
  s h := h.elim
  f _ pre n a h' := h _ a h'
  l h := h.elim
  stays pre n a h' := absurd h' (h _ a)

theorem alloc (a : α) : Acct (Track.alloc a) True True False False False where
  ok I n a h := ⟨trivial, fun _ => trivial, fun h => by simp [Tracked.Spills, Track.alloc] at h⟩
  bad I n h := absurd rfl (h a)
  d _ := ⟨[], a, fun pre rest n => ⟨rfl, rfl, trivial⟩⟩
  o _ := ⟨[], a, fun pre rest n => ⟨rfl, rfl, .inl (by simp [Track.alloc])⟩⟩
  s h := h.elim
  f h := h.elim
  l h := h.elim
  stays pre n a h := rfl

/-- Something that has the same account, and succeeds if and only if the other does. -/
theorem same {m : Track α} {m' : Track β} (h : Acct m D O S F L) (g : α → β)
    (hok : ∀ I n a, (m I n).res = .ok a → (m' I n).res = .ok (g a))
    (hbad : ∀ I n, (m I n).Bad → (m' I n).Bad)
    (hs : ∀ I n, (m' I n).rest = (m I n).rest ∧ (m' I n).owned = (m I n).owned ∧
      (m' I n).kept = (m I n).kept ∧ (m' I n).lost = (m I n).lost) : Acct m' D O S F L := by
  have ho : ∀ I n, (m' I n).Owns ↔ (m I n).Owns := fun I n => by
    unfold Tracked.Owns; rw [(hs I n).2.1, (hs I n).2.2.1, (hs I n).2.2.2]
  have hsp : ∀ I n, (m' I n).Spills ↔ (m I n).Spills := fun I n => by
    unfold Tracked.Spills; rw [(hs I n).2.2.1, (hs I n).2.2.2]
  have back : ∀ I n b, (m' I n).res = .ok b → ∃ a, (m I n).res = .ok a := fun I n b hb => by
    rcases (m I n).ok_or_bad with h | h
    · exact h
    · exact absurd hb (hbad I n h b)
  have back' : ∀ I n, (m' I n).Bad → (m I n).Bad := fun I n hb => by
    rcases (m I n).ok_or_bad with ⟨a, h⟩ | h
    · exact absurd (hok I n a h) (hb _)
    · exact h
  have gives : ∀ w a (P : Tracked α → Prop) (Q : Tracked β → Prop), (∀ I n, P (m I n) → Q (m' I n)) →
      Gives m w a P → Gives m' w (g a) Q := fun w a P Q hpq ha pre rest n =>
    ⟨hok _ _ _ (ha pre rest n).1, (hs _ _).1.trans (ha pre rest n).2.1, hpq _ _ (ha pre rest n).2.2⟩
  refine ⟨⟨fun I n b hb => ?_, fun I n hb => ?_⟩, fun h' => ?_, fun h' => ?_, fun h' => ?_,
    fun h' pre n => hbad _ _ (h.f h' pre n), fun h' => ?_, fun pre n b hb => ?_⟩
  · obtain ⟨a, ha⟩ := back I n b hb
    obtain ⟨h1, h2, h3⟩ := h.ok I n a ha
    exact ⟨h1, fun h' => h2 ((ho I n).mp h'), fun h' => h3 ((hsp I n).mp h')⟩
  · rw [(hs I n).2.2.2]
    exact h.bad I n (back' I n hb)
  · obtain ⟨w, a, hw⟩ := h.d h'
    exact ⟨w, g a, gives _ _ _ _ (fun _ _ h => h) hw⟩
  · obtain ⟨w, a, hw⟩ := h.o h'
    exact ⟨w, g a, gives _ _ _ _ (fun I n => (ho I n).mpr) hw⟩
  · obtain ⟨w, a, hw⟩ := h.s h'
    exact ⟨w, g a, gives _ _ _ _ (fun I n => (hsp I n).mpr) hw⟩
  · obtain ⟨w, hw⟩ := h.l h'
    exact ⟨w, fun pre n => ⟨hbad _ _ (hw pre n).1, by rw [(hs _ _).2.2.2]; exact (hw pre n).2⟩⟩
  · obtain ⟨a, ha⟩ := back _ _ b hb
    rw [(hs _ _).1]
    exact h.stays _ _ _ ha

theorem mapErr {m : Track α} (h : Acct m D O S F L) (g : DecErr → DecErr) :
    Acct (m.mapErr g) D O S F L := by
  refine h.same id (fun I n a ha => ?_) (fun I n hb => ?_) fun I n => ⟨rfl, rfl, rfl, rfl⟩
  · show (m I n).res.mapErr g = _
    rw [ha]; rfl
  · intro a ha
    have ha' : (m I n).res.mapErr g = .ok a := ha
    cases hr : (m I n).res with
    | ok b => exact hb b hr
    | err e => rw [hr] at ha'; cases ha'
    | panic e => rw [hr] at ha'; cases ha'
    | ub e => rw [hr] at ha'; cases ha'

theorem map {m : Track α} (h : Acct m D O S F L) (g : α → β) : Acct (m.map g) D O S F L := by
  refine h.same g (fun I n a ha => ?_) (fun I n hb => ?_) fun I n => ⟨rfl, rfl, rfl, rfl⟩
  · show (m I n).res.map g = _
    rw [ha]; rfl
  · intro a ha
    have ha' : (m I n).res.map g = .ok a := ha
    cases hr : (m I n).res with
    | ok b => exact hb b hr
    | err e => rw [hr] at ha'; cases ha'
    | panic e => rw [hr] at ha'; cases ha'
    | ub e => rw [hr] at ha'; cases ha'

/-- What is in the cells of a sized slice spills. -/
theorem keep {m : Track α} (h : Acct m D O S F L) : Acct m.keep D O O F L := by
  have hs : ∀ I n, (m.keep I n).Spills ↔ (m I n).Owns := fun I n => by
    show (m I n).owned ++ (m I n).kept ≠ [] ∨ (m I n).lost ≠ [] ↔ _
    unfold Tracked.Owns
    rw [← or_assoc, append_nonempty]
  have ho : ∀ I n, (m.keep I n).Owns ↔ (m I n).Owns := fun I n => by
    rw [← hs I n]
    show ([] : List Nat) ≠ [] ∨ _ ↔ _
    simp [Tracked.Spills]
  refine ⟨⟨fun I n a ha => ?_, fun I n hb => h.bad I n hb⟩, h.d, fun h' => ?_, fun h' => ?_, h.f, h.l,
    h.stays⟩
  · obtain ⟨h1, h2, -⟩ := h.ok I n a ha
    exact ⟨h1, fun h' => h2 ((ho I n).mp h'), fun h' => h2 ((hs I n).mp h')⟩
  · obtain ⟨w, a, hw⟩ := h.o h'
    exact ⟨w, a, fun pre rest n => ⟨(hw pre rest n).1, (hw pre rest n).2.1,
      (ho _ _).mpr (hw pre rest n).2.2⟩⟩
  · obtain ⟨w, a, hw⟩ := h.o h'
    exact ⟨w, a, fun pre rest n => ⟨(hw pre rest n).1, (hw pre rest n).2.1,
      (hs _ _).mpr (hw pre rest n).2.2⟩⟩

end Acct

/-- One after the other. -/
theorem Gives.bind {raw : Bool} {m : Track α} {f : α → Track β} {w w' : List Byte} {a : α} {b : β}
    {P : Tracked α → Prop} {P' Q : Tracked β → Prop} (ha : Gives m w a P) (hb : Gives (f a) w' b P')
    (hq : ∀ x y, P x → y.res = .ok b → P' y → Q (Track.after raw x y)) :
    Gives (Track.bindWith raw m f) (w ++ w') b Q := by
  intro pre rest n
  have h1 := ha pre (w' ++ rest) n
  rw [← List.append_assoc w] at h1
  obtain ⟨h1, h2, h3⟩ := h1
  rw [bindWith_ok h1]
  have h4 := hb (pre ++ w) rest (m ⟨pre ++ (w ++ w' ++ rest), pre.length⟩ n).next
  rw [List.length_append, List.append_assoc pre, ← List.append_assoc w, ← h2] at h4
  obtain ⟨h4, h5, h6⟩ := h4
  refine ⟨by rw [after_ok h4], ?_, hq _ _ h3 h4 h6⟩
  rw [after_ok h4]
  show (f a _ _).rest = _
  rw [h5, List.length_append, Nat.add_assoc]

/-- One after the other, with a failure. -/
theorem Gives.bind_bad {raw : Bool} {m : Track α} {f : α → Track β} {w w' : List Byte} {a : α}
    {P : Tracked α → Prop} {P' Q : Tracked β → Prop} (ha : Gives m w a P)
    (h' : ∀ pre n, (f a ⟨pre ++ w', pre.length⟩ n).Bad ∧ P' (f a ⟨pre ++ w', pre.length⟩ n))
    (hq : ∀ x y, P x → y.Bad → P' y → Q (Track.after raw x y)) (pre : List Byte) (n : Nat) :
    (Track.bindWith raw m f ⟨pre ++ (w ++ w'), pre.length⟩ n).Bad ∧
      Q (Track.bindWith raw m f ⟨pre ++ (w ++ w'), pre.length⟩ n) := by
  obtain ⟨h1, h2, h3⟩ := ha pre w' n
  rw [bindWith_ok h1]
  have h4 := h' (pre ++ w) (m ⟨pre ++ (w ++ w'), pre.length⟩ n).next
  rw [List.length_append, List.append_assoc pre, ← h2] at h4
  exact ⟨(after_bad h4.1).1, hq _ _ h3 h4.1 h4.2⟩

theorem after_owns {raw : Bool} {x : Tracked α} {y : Tracked β} {b : β} (h : y.res = .ok b) :
    (Track.after raw x y).Owns ↔ x.Owns ∨ y.Owns := by
  rw [after_ok h]
  simp only [Tracked.Owns, append_nonempty]
  constructor
  · rintro ((h | h) | (h | h) | (h | h)) <;> simp [h]
  · rintro ((h | h | h) | (h | h | h)) <;> simp [h]

theorem after_spills {raw : Bool} {x : Tracked α} {y : Tracked β} {b : β} (h : y.res = .ok b) :
    (Track.after raw x y).Spills ↔ x.Spills ∨ y.Spills := by
  rw [after_ok h]
  simp only [Tracked.Spills, append_nonempty]
  constructor
  · rintro ((h | h) | (h | h)) <;> simp [h]
  · rintro ((h | h) | (h | h)) <;> simp [h]

theorem after_loses {raw : Bool} {x : Tracked α} {y : Tracked β} (h : y.Bad) :
    (Track.after raw x y).lost ≠ [] ↔ y.lost ≠ [] ∨ x.Spills ∨ raw = true ∧ x.Owns := by
  rw [(after_bad h).2]
  simp only [Tracked.Spills, Tracked.Owns, append_nonempty]
  cases raw with
  | true =>
    simp only [if_true, true_and]
    constructor
    · rintro (((h | h) | h) | h) <;> simp [h]
    · rintro (h | (h | h) | (h | h | h)) <;> simp [h]
  | false =>
    constructor
    · rintro (((h | h) | h) | h)
      · exact .inr (.inl (.inr h))
      · exact .inl h
      · exact .inr (.inl (.inl h))
      · exact absurd rfl h
    · rintro (h | (h | h) | ⟨h, -⟩)
      · exact .inl (.inl (.inr h))
      · exact .inl (.inr h)
      · exact .inl (.inl (.inl h))
      · cases h

theorem Upper.bindWith {D O S F L D' O' S' F' L' : Prop} {raw : Bool} {m : Track α} {f : α → Track β}
    (h : Upper m D O S F L) (h' : ∀ a, Upper (f a) D' O' S' F' L') :
    Upper (Track.bindWith raw m f) (D ∧ D') (O ∧ D' ∨ D ∧ O') (S ∧ D' ∨ D ∧ S') (F ∨ F')
      (L ∨ D ∧ L' ∨ (raw = true ∧ O ∨ S) ∧ F') := by
  refine ⟨fun I n b hb => ?_, fun I n hb => ?_⟩
  · rcases (m I n).ok_or_bad with ⟨a, ha⟩ | hx
    · rw [bindWith_ok ha] at hb ⊢
      obtain ⟨h1, h2, h3⟩ := h.ok I n a ha
      rcases (f a (m I n).rest (m I n).next).ok_or_bad with ⟨c, hc⟩ | hy
      · obtain ⟨h4, h5, h6⟩ := (h' a).ok _ _ c hc
        rw [after_owns hc, after_spills hc]
        exact ⟨⟨h1, h4⟩, fun ho => ho.elim (fun ho => .inl ⟨h2 ho, h4⟩) fun ho => .inr ⟨h1, h5 ho⟩,
          fun ho => ho.elim (fun ho => .inl ⟨h3 ho, h4⟩) fun ho => .inr ⟨h1, h6 ho⟩⟩
      · exact absurd hb ((after_bad hy).1 b)
    · exact absurd hb ((bindWith_bad hx).1 b)
  · rcases (m I n).ok_or_bad with ⟨a, ha⟩ | hx
    · rw [bindWith_ok ha] at hb ⊢
      obtain ⟨h1, h2, h3⟩ := h.ok I n a ha
      rcases (f a (m I n).rest (m I n).next).ok_or_bad with ⟨c, hc⟩ | hy
      · rw [after_ok hc] at hb
        exact absurd rfl (hb c)
      · obtain ⟨h4, h5⟩ := (h' a).bad _ _ hy
        rw [after_loses hy]
        refine ⟨.inr h4, ?_⟩
        rintro (hl | hl | ⟨hr, hl⟩)
        · exact .inr (.inl ⟨h1, h5 hl⟩)
        · exact .inr (.inr ⟨.inr (h3 hl), h4⟩)
        · exact .inr (.inr ⟨.inl ⟨hr, h2 hl⟩, h4⟩)
    · obtain ⟨h1, h2⟩ := h.bad I n hx
      rw [(bindWith_bad hx).2]
      exact ⟨.inl h1, fun hl => .inl (h2 hl)⟩

theorem Upper.mono {D O S F L D' O' S' F' L' : Prop} {m : Track α} (h : Upper m D O S F L)
    (hd : D → D') (ho : O → O') (hs : S → S') (hf : F → F') (hl : L → L') : Upper m D' O' S' F' L' where
  ok I n a ha := ⟨hd (h.ok I n a ha).1, fun h' => ho ((h.ok I n a ha).2.1 h'),
    fun h' => hs ((h.ok I n a ha).2.2 h')⟩
  bad I n hb := ⟨hf (h.bad I n hb).1, fun h' => hl ((h.bad I n hb).2 h')⟩

namespace Acct
variable {D O S F L D' O' S' F' L' : Prop}

theorem bindWith {raw : Bool} {m : Track α} {f : α → Track β} (h : Acct m D O S F L)
    (h' : ∀ a, Acct (f a) D' O' S' F' L') :
    Acct (Track.bindWith raw m f) (D ∧ D') (O ∧ D' ∨ D ∧ O') (S ∧ D' ∨ D ∧ S') (F ∨ F')
      (L ∨ D ∧ L' ∨ (raw = true ∧ O ∨ S) ∧ F') := by
  refine ⟨h.toUpper.bindWith fun a => (h' a).toUpper, fun hd => ?_, fun ho => ?_, fun hs => ?_,
    fun hf pre n => ?_, fun hl => ?_, fun pre n b hb => ?_⟩
  · obtain ⟨w, a, ha⟩ := h.d hd.1
    obtain ⟨w', b, hb⟩ := (h' a).d hd.2
    exact ⟨_, b, ha.bind hb fun _ _ _ _ _ => trivial⟩
  · rcases ho with ⟨ho, hd⟩ | ⟨hd, ho⟩
    · obtain ⟨w, a, ha⟩ := h.o ho
      obtain ⟨w', b, hb⟩ := (h' a).d hd
      exact ⟨_, b, ha.bind hb fun _ _ hx hy _ => (after_owns hy).mpr (.inl hx)⟩
    · obtain ⟨w, a, ha⟩ := h.d hd
      obtain ⟨w', b, hb⟩ := (h' a).o ho
      exact ⟨_, b, ha.bind hb fun _ _ _ hy hx => (after_owns hy).mpr (.inr hx)⟩
  · rcases hs with ⟨ho, hd⟩ | ⟨hd, ho⟩
    · obtain ⟨w, a, ha⟩ := h.s ho
      obtain ⟨w', b, hb⟩ := (h' a).d hd
      exact ⟨_, b, ha.bind hb fun _ _ hx hy _ => (after_spills hy).mpr (.inl hx)⟩
    · obtain ⟨w, a, ha⟩ := h.d hd
      obtain ⟨w', b, hb⟩ := (h' a).s ho
      exact ⟨_, b, ha.bind hb fun _ _ _ hy hx => (after_spills hy).mpr (.inr hx)⟩
  · rcases (m ⟨pre, pre.length⟩ n).ok_or_bad with ⟨a, ha⟩ | hx
    · rcases hf with hf | hf
      · exact absurd ha (h.f hf pre n a)
      · rw [bindWith_ok ha, h.stays _ _ _ ha]
        exact (after_bad ((h' a).f hf pre _)).1
    · exact (bindWith_bad hx).1
  · rcases hl with hl | ⟨hd, hl⟩ | ⟨ho, hf⟩
    · obtain ⟨w, hw⟩ := h.l hl
      exact ⟨w, fun pre n => ⟨(bindWith_bad (hw pre n).1).1, by
        rw [(bindWith_bad (hw pre n).1).2]; exact (hw pre n).2⟩⟩
    · obtain ⟨w, a, ha⟩ := h.d hd
      obtain ⟨w', hw'⟩ := (h' a).l hl
      exact ⟨_, ha.bind_bad (P' := fun y => y.lost ≠ []) (Q := fun y => y.lost ≠ []) hw'
        fun _ _ _ hy hl => (after_loses hy).mpr (.inl hl)⟩
    · have : ∃ w a, Gives m w a fun x => x.Spills ∨ raw = true ∧ x.Owns := by
        rcases ho with ⟨hr, ho⟩ | hs
        · obtain ⟨w, a, ha⟩ := h.o ho
          exact ⟨w, a, fun pre rest n => ⟨(ha pre rest n).1, (ha pre rest n).2.1,
            .inr ⟨hr, (ha pre rest n).2.2⟩⟩⟩
        · obtain ⟨w, a, ha⟩ := h.s hs
          exact ⟨w, a, fun pre rest n => ⟨(ha pre rest n).1, (ha pre rest n).2.1,
            .inl (ha pre rest n).2.2⟩⟩
      obtain ⟨w, a, ha⟩ := this
      exact ⟨_, ha.bind_bad (w' := []) (P' := fun _ => True) (Q := fun y => y.lost ≠ [])
        (fun pre n => ⟨by rw [List.append_nil]; exact (h' a).f hf pre n, trivial⟩)
        fun _ _ hx hy _ => (after_loses hy).mpr (.inr hx)⟩
  · rcases (m ⟨pre, pre.length⟩ n).ok_or_bad with ⟨a, ha⟩ | hx
    · rw [bindWith_ok ha, h.stays _ _ _ ha] at hb ⊢
      rcases (f a ⟨pre, pre.length⟩ (m ⟨pre, pre.length⟩ n).next).ok_or_bad with ⟨c, hc⟩ | hy
      · rw [after_ok hc]
        exact (h' a).stays _ _ _ hc
      · exact absurd hb ((after_bad hy).1 b)
    · exact absurd hb ((bindWith_bad hx).1 b)

theorem bind {m : Track α} {f : α → Track β} (h : Acct m D O S F L)
    (h' : ∀ a, Acct (f a) D' O' S' F' L') :
    Acct (Track.bind m f) (D ∧ D') (O ∧ D' ∨ D ∧ O') (S ∧ D' ∨ D ∧ S') (F ∨ F')
      (L ∨ D ∧ L' ∨ S ∧ F') :=
  (bindWith h h').congr Iff.rfl Iff.rfl Iff.rfl Iff.rfl (by simp)

/-- A choice, which is read first. -/
theorem choose' {d : Dec κ} {f : κ → Track β} {A : κ → Prop} {D O S F L : Prop}
    (hd : ∀ I a, (d I).1 = .ok a → A a)
    (hy : ∀ a, A a → ∃ w, Yields d w (.ok a)) (hF : EatsDec d)
    (h : ∀ a, A a → Upper (f a) D O S F L)
    (hd' : D → ∃ a, A a ∧ ∃ w b, Gives (f a) w b fun _ => True)
    (ho' : O → ∃ a, A a ∧ ∃ w b, Gives (f a) w b Tracked.Owns)
    (hs' : S → ∃ a, A a ∧ ∃ w b, Gives (f a) w b Tracked.Spills)
    (hl' : L → ∃ a, A a ∧ ∃ w, ∀ pre n, (f a ⟨pre ++ w, pre.length⟩ n).Bad ∧
      (f a ⟨pre ++ w, pre.length⟩ n).lost ≠ []) :
    Acct (Track.bind (Track.of d) f) D O S True L := by
  have gives : ∀ a, A a → ∃ w, Gives (Track.of d) w a fun _ => True := fun a ha => by
    obtain ⟨w, hw⟩ := hy a ha
    exact ⟨w, fun pre rest n => ⟨congrArg Prod.fst (hw pre rest), congrArg Prod.snd (hw pre rest), trivial⟩⟩
  have hbad : ∀ pre n, (Track.of d ⟨pre, pre.length⟩ n).Bad := fun pre n a h => by
    have := hF ⟨pre, pre.length⟩ (Nat.le_refl _) a (d ⟨pre, pre.length⟩).2 (Prod.ext h rfl)
    simp only [Input.remaining, Input.capacity, Input.position] at this
    omega
  have ho : ∀ I n, ¬ (Track.of d I n).Owns := fun I n h => by simp [Tracked.Owns, Track.of] at h
  have hs : ∀ I n, ¬ (Track.of d I n).Spills := fun I n h => by simp [Tracked.Spills, Track.of] at h
  unfold Track.bind
  refine ⟨⟨fun I n b hb => ?_, fun I n hb => ⟨trivial, fun hl => ?_⟩⟩, ?_, ?_, ?_,
    fun hf pre n => (bindWith_bad (hbad pre n)).1, ?_,
    fun pre n b hb => absurd hb ((bindWith_bad (hbad pre n)).1 b)⟩
  · rcases (Track.of d I n).ok_or_bad with ⟨a, ha⟩ | hx
    · have hA := hd I a ha
      rw [bindWith_ok ha] at hb ⊢
      rcases (f a (Track.of d I n).rest (Track.of d I n).next).ok_or_bad with ⟨c, hc⟩ | hy
      · obtain ⟨h4, h5, h6⟩ := (h a hA).ok _ _ c hc
        rw [after_owns hc, after_spills hc]
        exact ⟨h4, fun h' => h5 (h'.resolve_left (ho I n)), fun h' => h6 (h'.resolve_left (hs I n))⟩
      · exact absurd hb ((after_bad hy).1 b)
    · exact absurd hb ((bindWith_bad hx).1 b)
  · rcases (Track.of d I n).ok_or_bad with ⟨a, ha⟩ | hx
    · have hA := hd I a ha
      rw [bindWith_ok ha] at hb hl
      rcases (f a (Track.of d I n).rest (Track.of d I n).next).ok_or_bad with ⟨c, hc⟩ | hy
      · rw [after_ok hc] at hb
        exact absurd rfl (hb c)
      · rcases (after_loses hy).mp hl with hl | hl | hl
        · exact ((h a hA).bad _ _ hy).2 hl
        · exact absurd hl (hs I n)
        · cases hl.1
    · rw [(bindWith_bad hx).2] at hl
      exact absurd rfl hl
  · intro hd
    obtain ⟨a, hA, w', b, hb⟩ := hd' hd
    obtain ⟨w, ha⟩ := gives a hA
    exact ⟨_, b, ha.bind hb fun _ _ _ _ _ => trivial⟩
  · intro hd
    obtain ⟨a, hA, w', b, hb⟩ := ho' hd
    obtain ⟨w, ha⟩ := gives a hA
    exact ⟨_, b, ha.bind hb fun _ _ _ hy hx => (after_owns hy).mpr (.inr hx)⟩
  · intro hd
    obtain ⟨a, hA, w', b, hb⟩ := hs' hd
    obtain ⟨w, ha⟩ := gives a hA
    exact ⟨_, b, ha.bind hb fun _ _ _ hy hx => (after_spills hy).mpr (.inr hx)⟩
  · intro hl
    obtain ⟨a, hA, w', hw'⟩ := hl' hl
    obtain ⟨w, ha⟩ := gives a hA
    exact ⟨_, ha.bind_bad (P' := fun y => y.lost ≠ []) (Q := fun y => y.lost ≠ []) hw'
      fun _ _ _ hy hl => (after_loses hy).mpr (.inl hl)⟩

/-- A choice, which is read first, if what comes after is known. -/
theorem choose {d : Dec κ} {f : κ → Track β} {A D O S F L : κ → Prop} (hd : ∀ I a, (d I).1 = .ok a → A a)
    (hy : ∀ a, A a → ∃ w, Yields d w (.ok a)) (hF : EatsDec d)
    (h : ∀ a, A a → Acct (f a) (D a) (O a) (S a) (F a) (L a)) :
    Acct (Track.bind (Track.of d) f) (∃ a, A a ∧ D a) (∃ a, A a ∧ O a) (∃ a, A a ∧ S a) True
      (∃ a, A a ∧ L a) :=
  choose' (F := True) hd hy hF
    (fun a hA => (h a hA).toUpper.mono (fun h => ⟨a, hA, h⟩) (fun h => ⟨a, hA, h⟩) (fun h => ⟨a, hA, h⟩)
      (fun _ => trivial) (fun h => ⟨a, hA, h⟩))
    (fun ⟨a, hA, h'⟩ => ⟨a, hA, (h a hA).d h'⟩) (fun ⟨a, hA, h'⟩ => ⟨a, hA, (h a hA).o h'⟩)
    (fun ⟨a, hA, h'⟩ => ⟨a, hA, (h a hA).s h'⟩) (fun ⟨a, hA, h'⟩ => ⟨a, hA, (h a hA).l h'⟩)

/-- A choice of a length. -/
theorem prefixed {f : Nat → Track β} {D O S F L : Nat → Prop}
    (h : ∀ n, Acct (f n) (D n) (O n) (S n) (F n) (L n)) :
    Acct (Track.bind (Track.of decUsize) f) (∃ n, n ≤ 65535 ∧ D n) (∃ n, n ≤ 65535 ∧ O n)
      (∃ n, n ≤ 65535 ∧ S n) True (∃ n, n ≤ 65535 ∧ L n) := by
  refine choose (fun I a ha => ?_) (fun n hn => ⟨_, decUsize_yields n hn⟩) decUsize_eats fun n _ => h n
  have := decUsize_ends hsOverflow (U := anyUb) I
  rw [ha] at this
  exact this

theorem items {m : Track α} (h : Acct m D O S F L) : ∀ n i, Acct (trackItems m n i) (n = 0 ∨ D)
    (n ≠ 0 ∧ O) (n ≠ 0 ∧ S) (n ≠ 0 ∧ F) (n ≠ 0 ∧ L ∨ 2 ≤ n ∧ O ∧ F)
  | 0, _ => (pure' _).congr (by simp) (by simp) (by simp) (by simp) (by simp)
  | n + 1, i => by
    have ho := h.owning
    have hs := h.spilling
    refine (bindWith (raw := true) (h.mapErr _) fun v => (h.items n (i + 1)).map _).congr ?_ ?_ ?_ ?_ ?_
    · simp; exact fun h => .inr h
    · simp only [ne_eq, Nat.succ_ne_zero, not_false_eq_true, true_and]
      constructor
      · rintro (⟨h, -⟩ | ⟨-, -, h⟩) <;> exact h
      · exact fun h => .inl ⟨h, .inr (ho h)⟩
    · simp only [ne_eq, Nat.succ_ne_zero, not_false_eq_true, true_and]
      constructor
      · rintro (⟨h, -⟩ | ⟨-, -, h⟩) <;> exact h
      · exact fun h => .inl ⟨h, .inr (ho (hs h))⟩
    · simp only [ne_eq, Nat.succ_ne_zero, not_false_eq_true, true_and]
      constructor
      · rintro (h | ⟨-, h⟩) <;> exact h
      · exact .inl
    · constructor
      · rintro (hl | ⟨hd, hl | ⟨h2, hl⟩⟩ | ⟨hl, h0, hf⟩)
        · exact .inl ⟨by omega, hl⟩
        · exact .inl ⟨by omega, hl.2⟩
        · exact .inr ⟨by omega, hl⟩
        · exact .inr ⟨by omega, hl.elim (fun h => h.2) hs, hf⟩
      · rintro (⟨-, hl⟩ | ⟨h2, hl, hf⟩)
        · exact .inl hl
        · exact .inr (.inr ⟨.inl ⟨rfl, hl⟩, by omega, hf⟩)

theorem buffer (len : Nat) : Acct (trackBuffer len) True (len ≠ 0) False False False := by
  unfold trackBuffer
  split
  · exact (pure' _).congr (by simp) (by simp [*]) (by simp) (by simp) (by simp)
  · exact (alloc _).congr (by simp) (by simp [*]) (by simp) (by simp) (by simp)

theorem vec {m : Track α} (h : Acct m D O S F L) :
    Acct (trackVec m) True D S True (L ∨ O ∧ F) := by
  have ho := h.owning
  refine (prefixed fun n => (buffer n).bind fun _ => (h.items n 0).map _).congr ?_ ?_ ?_ Iff.rfl ?_
  · exact ⟨fun _ => trivial, fun _ => ⟨0, by decide, trivial, .inl rfl⟩⟩
  · constructor
    · rintro ⟨n, -, ⟨h0, hd⟩ | ⟨-, -, h⟩⟩
      · exact hd.resolve_left h0
      · exact ho h
    · exact fun hd => ⟨1, by decide, .inl ⟨by decide, .inr hd⟩⟩
  · constructor
    · rintro ⟨n, -, ⟨h, -⟩ | ⟨-, -, h⟩⟩
      · exact h.elim
      · exact h
    · exact fun hs => ⟨1, by decide, .inr ⟨trivial, by decide, hs⟩⟩
  · constructor
    · rintro ⟨n, -, h | ⟨-, h | h⟩ | h⟩
      · exact h.elim
      · exact .inl h.2
      · exact .inr h.2
      · exact h.1.elim
    · exact fun hl => ⟨2, by decide, .inr (.inl ⟨trivial, hl.elim (fun hl => .inl ⟨by decide, hl⟩)
        fun hl => .inr ⟨by decide, hl⟩⟩)⟩

theorem nodes {m : Track α} (h : Acct m D O S F L) : ∀ n i, Acct (trackNodes m n i) (n = 0 ∨ D)
    (n ≠ 0 ∧ D) (n ≠ 0 ∧ S) (n ≠ 0 ∧ F) (n ≠ 0 ∧ L ∨ 2 ≤ n ∧ S ∧ F)
  | 0, _ => (pure' _).congr (by simp) (by simp) (by simp) (by simp) (by simp)
  | n + 1, i => by
    have ho := h.owning
    have hs := h.spilling
    refine ((h.mapErr _).bind fun v => (alloc ()).bind fun _ =>
      (h.nodes n (i + 1)).map _).congr ?_ ?_ ?_ ?_ ?_
    · constructor
      · exact fun h => .inr h.1
      · exact fun h' => have hd := h'.resolve_left (Nat.succ_ne_zero n)
          ⟨hd, trivial, .inr hd⟩
    · constructor
      · rintro (⟨h, -, -⟩ | ⟨h, -⟩)
        · exact ⟨Nat.succ_ne_zero n, ho h⟩
        · exact ⟨Nat.succ_ne_zero n, h⟩
      · exact fun ⟨_, hd⟩ => .inr ⟨hd, .inl ⟨trivial, .inr hd⟩⟩
    · constructor
      · rintro (⟨h, -⟩ | ⟨-, ⟨h, -⟩ | ⟨-, h⟩⟩)
        · exact ⟨Nat.succ_ne_zero n, h⟩
        · exact h.elim
        · exact ⟨Nat.succ_ne_zero n, h.2⟩
      · exact fun ⟨_, h'⟩ => .inl ⟨h', trivial, .inr (ho (hs h'))⟩
    · constructor
      · rintro (h | h | ⟨-, h⟩)
        · exact ⟨Nat.succ_ne_zero n, h⟩
        · exact h.elim
        · exact ⟨Nat.succ_ne_zero n, h⟩
      · exact fun h => .inl h.2
    · constructor
      · rintro (hl | ⟨hd, hl | ⟨-, hl | ⟨h2, hl⟩⟩ | hl⟩ | ⟨hl, hf | ⟨h0, hf⟩⟩)
        · exact .inl ⟨by omega, hl⟩
        · exact hl.elim
        · exact .inl ⟨by omega, hl.2⟩
        · exact .inr ⟨by omega, hl⟩
        · exact hl.1.elim
        · exact hf.elim
        · exact .inr ⟨by omega, hl, hf⟩
      · rintro (⟨-, hl⟩ | ⟨h2, hl, hf⟩)
        · exact .inl hl
        · exact .inr (.inr ⟨hl, .inr ⟨by omega, hf⟩⟩)

theorem list {m : Track α} (h : Acct m D O S F L) :
    Acct (trackList m) True D S True (L ∨ S ∧ F) := by
  refine (prefixed fun n => (h.nodes n 0).map _).congr ?_ ?_ ?_ Iff.rfl ?_
  · exact ⟨fun _ => trivial, fun _ => ⟨0, by decide, .inl rfl⟩⟩
  · exact ⟨fun ⟨_, _, _, h⟩ => h, fun h => ⟨1, by decide, by decide, h⟩⟩
  · exact ⟨fun ⟨_, _, _, h⟩ => h, fun h => ⟨1, by decide, by decide, h⟩⟩
  · constructor
    · rintro ⟨n, -, h | h⟩
      · exact .inl h.2
      · exact .inr h.2
    · exact fun hl => ⟨2, by decide, hl.elim (fun hl => .inl ⟨by decide, hl⟩)
        fun hl => .inr ⟨by decide, hl⟩⟩

theorem ite {c : Prop} [Decidable c] {m m' : Track α} (h : c → Acct m D O S F L)
    (h' : ¬ c → Acct m' D' O' S' F' L') : Acct (if c then m else m') (if c then D else D')
      (if c then O else O') (if c then S else S') (if c then F else F') (if c then L else L') := by
  split
  · rename_i hc
    exact (h hc).congr (by simp) (by simp) (by simp) (by simp) (by simp)
  · rename_i hc
    exact (h' hc).congr (by simp) (by simp) (by simp) (by simp) (by simp)

theorem sized {m : Track α} (h : Acct m D O S F L) (n : Nat) :
    Acct (trackSized m n) (n = 0 ∨ D) (n ≠ 0 ∧ O) (n ≠ 0 ∧ O) True (n ≠ 0 ∧ L ∨ 2 ≤ n ∧ O ∧ F) := by
  have key : ∀ {P : Prop}, (∃ len, len ≤ 65535 ∧ if len > n then False else P) ↔ P := fun {P} => by
    constructor
    · rintro ⟨len, -, h⟩
      split at h
      · exact h.elim
      · exact h
    · exact fun h => ⟨0, by decide, by rw [if_neg (by omega)]; exact h⟩
  exact (prefixed fun len => .ite (fun _ => .stop _ fun _ _ h => by cases h)
    fun _ => ((h.items n 0).keep.map _)).congr key key key Iff.rfl key

end Acct

end Oct
