import Verif.Spec.Protectors
import Verif.Proofs.StackedBorrows
import Verif.Proofs.TreeBorrows
/-
That protectors change nothing where, while a function runs, all that is used of its argument's memory was made of the
argument.
-/
namespace Oct.Alias
open Spec Sound

/-- At `l`, tags are made in order from `t` to `t'`, and whatever is used is not older than the arguments `P`. -/
inductive Fits (l : Nat) : List Nat → Nat → List Mark → Nat → Prop where
  | nil {P t} : Fits l P t [] t
  | read {P t t' u r ms} : (r.has l = true → ∀ p ∈ P, p ≤ u) → Fits l P t ms t' →
    Fits l P t (.event (.read u r) :: ms) t'
  | write {P t t' u r ms} : (r.has l = true → ∀ p ∈ P, p ≤ u) → Fits l P t ms t' →
    Fits l P t (.event (.write u r) :: ms) t'
  | retag {P t t' k u r ms} : (r.has l = true → ∀ p ∈ P, p ≤ u) → Fits l P (t + 1) ms t' →
    Fits l P t (.event (.retag k u t r) :: ms) t'
  | call {P t t₁ t' k u r ms rest} : k ≠ .raw → (r.has l = true → ∀ p ∈ P, p ≤ u) →
    Fits l (if r.has l then t :: P else P) (t + 1) ms t₁ → Fits l P t₁ rest t' →
    Fits l P t (.enter k u t r :: (ms ++ .leave t r :: rest)) t'

theorem Fits.append {l : Nat} {P : List Nat} {t t₁ t' : Nat} {ms ns : List Mark} (h : Fits l P t ms t₁)
    (h' : Fits l P t₁ ns t') : Fits l P t (ms ++ ns) t' := by
  induction h with
  | nil => exact h'
  | read hu _ ih => exact .read hu (ih h')
  | write hu _ ih => exact .write hu (ih h')
  | retag hu _ ih => exact .retag hu (ih h')
  | call hk hu h1 _ _ ih =>
    rw [List.cons_append, List.append_assoc]
    exact .call hk hu h1 (ih h')

theorem plain_append : (ms ns : List Mark) → plain (ms ++ ns) = plain ms ++ plain ns
  | [], _ => rfl
  | .event _ :: ms, ns => congrArg (_ :: ·) (plain_append ms ns)
  | .enter _ _ _ _ :: ms, ns => congrArg (_ :: ·) (plain_append ms ns)
  | .leave _ _ :: ms, ns => plain_append ms ns

theorem runMarks_append {τ : Type} (R : Protecting τ) (l : Nat) : (ms ns : List Mark) → (s : τ × List Nat) →
    runMarks R l (ms ++ ns) s = (runMarks R l ms s).bind (runMarks R l ns)
  | [], _, _ => rfl
  | m :: ms, ns, s => by
    show (m.act R l s).bind (runMarks R l (ms ++ ns)) = ((m.act R l s).bind (runMarks R l ms)).bind _
    cases m.act R l s with
    | none => rfl
    | some s' => exact runMarks_append R l ms ns s'

/-- What makes rules with protectors the same as those without: `Inv P n s` says that nothing has happened to the
arguments `P`, and that tags from `n` on are not in use. -/
structure Shielded {σ τ : Type} (R : Rules σ) (Q : Protecting τ) where
  emb : σ → τ
  Inv : List Nat → Nat → σ → Prop
  start_eq : ∀ r, Q.start r = emb (R.start r)
  start : ∀ {r n}, r < n → Inv [] n (R.start r)
  mono : ∀ {P n s}, Inv P n s → Inv P (n + 1) s
  read : ∀ {P n u s}, Inv P n s → (∀ p ∈ P, p ≤ u) →
    Q.read P u (emb s) = (R.read u s).map emb ∧ ∀ s', R.read u s = some s' → Inv P n s'
  write : ∀ {P n u s}, Inv P n s → (∀ p ∈ P, p ≤ u) →
    Q.write P u (emb s) = (R.write u s).map emb ∧ ∀ s', R.write u s = some s' → Inv P n s'
  retag : ∀ {P n k u s}, Inv P n s → (∀ p ∈ P, p ≤ u) →
    Q.retag P k u n (emb s) = (R.retag k u n s).map emb ∧
      ∀ s', R.retag k u n s = some s' → Inv P (n + 1) s' ∧ (k ≠ .raw → Inv (n :: P) (n + 1) s')
  leave : ∀ {P n q s}, Inv (q :: P) n s → Q.leave P q (emb s) = some (emb s) ∧ Inv P n s

namespace Shielded
variable {σ τ : Type} {R : Rules σ} {Q : Protecting τ} (S : Shielded R Q)

theorem run {l : Nat} {P : List Nat} {t t' : Nat} {ms : List Mark} (h : Fits l P t ms t') : ∀ s, S.Inv P t s →
    runMarks Q l ms (S.emb s, P) = (runAt R l (plain ms) s).map (fun s' => (S.emb s', P)) ∧
      ∀ s', runAt R l (plain ms) s = some s' → S.Inv P t' s' := by
  induction h with
  | nil => exact fun s hs => ⟨rfl, fun s' e => Option.some.inj e ▸ hs⟩
  | @read P t t' u r ms hu _ ih =>
    intro s hs
    show (Mark.act Q l (.event (.read u r)) (S.emb s, P)).bind _
      = ((Event.act R l (.read u r) s).bind (runAt R l (plain ms))).map _ ∧ ∀ s',
        (Event.act R l (.read u r) s).bind (runAt R l (plain ms)) = some s' → _
    by_cases hr : r.has l = true
    · obtain ⟨h1, h2⟩ := S.read hs (hu hr)
      simp only [Mark.act, Event.act, hr, if_true, h1]
      cases he : R.read u s with
      | none => exact ⟨rfl, fun _ h => nomatch h⟩
      | some s₁ => exact ih s₁ (h2 s₁ he)
    · simp only [Mark.act, Event.act, hr]
      exact ih s hs
  | @write P t t' u r ms hu _ ih =>
    intro s hs
    show (Mark.act Q l (.event (.write u r)) (S.emb s, P)).bind _
      = ((Event.act R l (.write u r) s).bind (runAt R l (plain ms))).map _ ∧ ∀ s',
        (Event.act R l (.write u r) s).bind (runAt R l (plain ms)) = some s' → _
    by_cases hr : r.has l = true
    · obtain ⟨h1, h2⟩ := S.write hs (hu hr)
      simp only [Mark.act, Event.act, hr, if_true, h1]
      cases he : R.write u s with
      | none => exact ⟨rfl, fun _ h => nomatch h⟩
      | some s₁ => exact ih s₁ (h2 s₁ he)
    · simp only [Mark.act, Event.act, hr]
      exact ih s hs
  | @retag P t t' k u r ms hu _ ih =>
    intro s hs
    show (Mark.act Q l (.event (.retag k u t r)) (S.emb s, P)).bind _
      = ((Event.act R l (.retag k u t r) s).bind (runAt R l (plain ms))).map _ ∧ ∀ s',
        (Event.act R l (.retag k u t r) s).bind (runAt R l (plain ms)) = some s' → _
    by_cases hr : r.has l = true
    · obtain ⟨h1, h2⟩ := S.retag (k := k) hs (hu hr)
      simp only [Mark.act, Event.act, hr, if_true, h1]
      cases he : R.retag k u t s with
      | none => exact ⟨rfl, fun _ h => nomatch h⟩
      | some s₁ => exact ih s₁ (h2 s₁ he).1
    · simp only [Mark.act, Event.act, hr]
      exact ih s (S.mono hs)
  | @call P t t₁ t' k u r ms rest hk hu _ _ ih₁ ih₂ =>
    intro s hs
    have hp : plain (ms ++ .leave t r :: rest) = plain ms ++ plain rest := plain_append ms _
    show (Mark.act Q l (.enter k u t r) (S.emb s, P)).bind (runMarks Q l (ms ++ .leave t r :: rest))
      = ((Event.act R l (.retag k u t r) s).bind (runAt R l (plain (ms ++ .leave t r :: rest)))).map _ ∧ ∀ s',
        (Event.act R l (.retag k u t r) s).bind (runAt R l (plain (ms ++ .leave t r :: rest))) = some s' → _
    rw [hp]
    by_cases hr : r.has l = true
    · obtain ⟨h1, h2⟩ := S.retag (k := k) hs (hu hr)
      simp only [Mark.act, Event.act, hr, if_true, h1]
      cases he : R.retag k u t s with
      | none => exact ⟨rfl, fun _ h => nomatch h⟩
      | some s₁ =>
        simp only [hr, if_true] at ih₁
        obtain ⟨a1, a2⟩ := ih₁ s₁ ((h2 s₁ he).2 hk)
        show runMarks Q l (ms ++ .leave t r :: rest) (S.emb s₁, t :: P)
          = (runAt R l (plain ms ++ plain rest) s₁).map _ ∧ ∀ s', runAt R l (plain ms ++ plain rest) s₁ = some s' → _
        rw [runMarks_append, runAt_append, a1]
        cases hm : runAt R l (plain ms) s₁ with
        | none => exact ⟨rfl, fun _ h => nomatch h⟩
        | some s₂ =>
          obtain ⟨b1, b2⟩ := S.leave (a2 s₂ hm)
          show (Mark.act Q l (.leave t r) (S.emb s₂, t :: P)).bind _ = _ ∧ _
          simp only [Mark.act, hr, if_true, List.erase_cons_head, b1]
          exact ih₂ s₂ b2
    · simp only [Mark.act, Event.act, hr]
      have hr' : r.has l = false := by simpa using hr
      simp only [hr', Bool.false_eq_true, if_false] at ih₁
      obtain ⟨a1, a2⟩ := ih₁ s (S.mono hs)
      show runMarks Q l (ms ++ .leave t r :: rest) (S.emb s, P)
        = (runAt R l (plain ms ++ plain rest) s).map _ ∧ ∀ s', runAt R l (plain ms ++ plain rest) s = some s' → _
      rw [runMarks_append, runAt_append, a1]
      cases hm : runAt R l (plain ms) s with
      | none => exact ⟨rfl, fun _ h => nomatch h⟩
      | some s₂ =>
        show (Mark.act Q l (.leave t r) (S.emb s₂, P)).bind _ = _ ∧ _
        simp only [Mark.act, hr]
        exact ih₂ s₂ (a2 s₂ hm)

include S in
/-- Protectors change nothing. -/
theorem defined (s : Place) {ms : List Mark} (h : ∀ l, ∃ t, Fits l [] 2 ms t) :
    DefinedP Q s ms ↔ Defined R s (plain ms) := by
  refine forall_congr' fun l => ?_
  obtain ⟨t, ht⟩ := h l
  have := (S.run ht (R.start (if s.whole.has l then ownerTag else dataTag)) (S.start (by split <;> decide))).1
  rw [S.start_eq, this]
  cases runAt R l (plain ms) (R.start (if s.whole.has l then ownerTag else dataTag)) with
  | none => exact ⟨fun ⟨_, h⟩ => (nomatch h), fun ⟨_, h⟩ => (nomatch h)⟩
  | some x => exact ⟨fun _ => ⟨x, rfl⟩, fun _ => ⟨_, rfl⟩⟩

end Shielded

/-! Stacked Borrows. -/

/-- What is below an argument is older than it. -/
def stackInv (P : List Nat) (n : Nat) (s : List Item) : Prop :=
  (∀ p ∈ P, p < n) ∧ (∀ i ∈ s, i.tag < n) ∧ s.Pairwise fun a b => a.tag ∈ P → b.tag < a.tag

theorem cut_some {p : Item → Bool} : {s : List Item} → {q : List Item × Item × List Item} → cut p s = some q →
    s = q.1 ++ q.2.1 :: q.2.2 ∧ p q.2.1 = true
  | [], _, h => nomatch h
  | i :: s, q, h => by
    unfold cut at h
    split at h
    · rename_i hp
      cases h
      exact ⟨rfl, hp⟩
    · cases hc : cut p s with
      | none => rw [hc] at h; nomatch h
      | some c =>
        rw [hc] at h
        cases h
        obtain ⟨h1, h2⟩ := cut_some hc
        exact ⟨congrArg (i :: ·) h1, h2⟩

/-- What is above what is used is no argument. -/
theorem stackInv.above {P : List Nat} {n u : Nat} {A : List Item} {x : Item} {B : List Item}
    (h : stackInv P n (A ++ x :: B)) (hu : ∀ p ∈ P, p ≤ u) (hx : x.tag = u) : ∀ i ∈ A, i.tag ∉ P := by
  intro i hi hp
  have := (List.pairwise_append.mp h.2.2).2.2 i hi x (.head _) hp
  have := hu _ hp
  omega

theorem reads_tag {t : Nat} {i : Item} (h : i.reads t = true) : i.tag = t := by
  unfold Item.reads at h
  simp only [Bool.and_eq_true, decide_eq_true_eq] at h
  exact h.1

theorem writes_tag {t : Nat} {i : Item} (h : i.writes t = true) : i.tag = t := by
  unfold Item.writes at h
  simp only [Bool.and_eq_true, decide_eq_true_eq] at h
  exact h.1

theorem stackInv.sublist {P : List Nat} {n : Nat} {s s' : List Item} (h : stackInv P n s) (hs : s'.Sublist s) :
    stackInv P n s' := ⟨h.1, fun i hi => h.2.1 i (hs.subset hi), h.2.2.sublist hs⟩

theorem peers_sublist (x : Item) (A : List Item) : (peers x A).Sublist A := by
  unfold peers
  split
  · have := (List.takeWhile_sublist (l := A.reverse) fun i => decide (i.perm = .sharedRW)).reverse
    rwa [List.reverse_reverse] at this
  · exact List.nil_sublist A

theorem stackInv.push {P : List Nat} {n : Nat} {s : List Item} (h : stackInv P n s) (q : Perm) :
    stackInv P (n + 1) (⟨n, q⟩ :: s) ∧ stackInv (n :: P) (n + 1) (⟨n, q⟩ :: s) := by
  obtain ⟨h1, h2, h3⟩ := h
  refine ⟨⟨fun p hp => Nat.lt_succ_of_lt (h1 p hp), ?_, .cons (fun b hb _ => h2 b hb) h3⟩,
    fun p hp => ?_, ?_, .cons (fun b hb _ => h2 b hb) (h3.imp_of_mem fun {a b} ha _ hab hp => ?_)⟩
  · intro i hi
    rcases List.mem_cons.mp hi with rfl | hi
    · exact Nat.lt_succ_self n
    · exact Nat.lt_succ_of_lt (h2 i hi)
  · rcases List.mem_cons.mp hp with rfl | hp
    · exact Nat.lt_succ_self p
    · exact Nat.lt_succ_of_lt (h1 p hp)
  · intro i hi
    rcases List.mem_cons.mp hi with rfl | hi
    · exact Nat.lt_succ_self n
    · exact Nat.lt_succ_of_lt (h2 i hi)
  · rcases List.mem_cons.mp hp with hp | hp
    · have := h2 a ha
      omega
    · exact hab hp

theorem stackP_read {P : List Nat} {n u : Nat} {s : List Item} (h : stackInv P n s) (hu : ∀ p ∈ P, p ≤ u) :
    stackReadP P u s = stackRead u s ∧ ∀ s', stackRead u s = some s' → stackInv P n s' := by
  unfold stackReadP itemsAbove stackRead
  cases hc : cut (Item.reads u) s with
  | none => exact ⟨by simp, fun _ h => nomatch h⟩
  | some q =>
    obtain ⟨h1, h2⟩ := cut_some hc
    rw [h1] at h
    have ha := h.above hu (reads_tag h2)
    refine ⟨?_, fun s' e => ?_⟩
    · have : (q.1.any fun i => decide (i.perm = .unique) && decide (i.tag ∈ P)) = false := by
        rw [List.any_eq_false]
        intro i hi
        simp [ha i hi]
      simp only [this, Bool.false_eq_true, if_false]
    · cases e
      obtain ⟨e1, e2, e3⟩ := h
      refine ⟨e1, fun i hi => ?_, ?_⟩
      · rcases List.mem_append.mp hi with hi | hi
        · obtain ⟨j, hj, rfl⟩ := List.mem_map.mp hi
          rw [disable_tag]
          exact e2 j (List.mem_append_left _ hj)
        · exact e2 i (List.mem_append_right _ hi)
      · rw [List.pairwise_append] at e3 ⊢
        refine ⟨?_, e3.2.1, fun a hm b hb => ?_⟩
        · rw [List.pairwise_map]
          exact e3.1.imp fun {a b} hab => by simpa only [disable_tag] using hab
        · obtain ⟨j, hj, rfl⟩ := List.mem_map.mp hm
          rw [disable_tag]
          exact e3.2.2 j hj b hb

theorem stackP_write {P : List Nat} {n u : Nat} {s : List Item} (h : stackInv P n s) (hu : ∀ p ∈ P, p ≤ u) :
    stackWriteP P u s = stackWrite u s ∧ ∀ s', stackWrite u s = some s' → stackInv P n s' := by
  unfold stackWriteP itemsPopped stackWrite
  cases hc : cut (Item.writes u) s with
  | none => exact ⟨by simp, fun _ h => nomatch h⟩
  | some q =>
    obtain ⟨h1, h2⟩ := cut_some hc
    rw [h1] at h
    have ha := h.above hu (writes_tag h2)
    refine ⟨?_, fun s' e => ?_⟩
    · have : ((q.1.take (q.1.length - (peers q.2.1 q.1).length)).any fun i => decide (i.tag ∈ P)) = false := by
        rw [List.any_eq_false]
        intro i hi
        simp [ha i (List.mem_of_mem_take hi)]
      simp only [this, Bool.false_eq_true, if_false]
    · cases e
      exact h.sublist (List.Sublist.append (peers_sublist _ _) (List.Sublist.refl _))

theorem stackP_raw {P : List Nat} {n u : Nat} {s s' : List Item} (h : stackInv P n s) (hu : ∀ p ∈ P, p ≤ u)
    (e : stackRetag .raw u n s = some s') : stackInv P (n + 1) s' := by
  replace e : (cut (Item.writes u) s).map (fun c => c.1.take (c.1.length - (peers c.2.1 c.1).length) ++ ⟨n, .sharedRW⟩ ::
    (peers c.2.1 c.1 ++ c.2.1 :: c.2.2)) = some s' := e
  cases hc : cut (Item.writes u) s with
  | none => rw [hc] at e; nomatch e
  | some q =>
    rw [hc] at e
    cases e
    obtain ⟨h1, h2⟩ := cut_some hc
    rw [h1] at h
    have ha := h.above hu (writes_tag h2)
    have hs := List.take_sublist (q.1.length - (peers q.2.1 q.1).length) q.1
    have hb := peers_sublist q.2.1 q.1
    have low : stackInv P n (peers q.2.1 q.1 ++ q.2.1 :: q.2.2) := h.sublist (List.Sublist.append hb (List.Sublist.refl _))
    have up : stackInv P n (q.1.take (q.1.length - (peers q.2.1 q.1).length)) := h.sublist (hs.trans (List.sublist_append_left _ _))
    have new := (low.push .sharedRW).1
    refine ⟨new.1, fun i hi => ?_, List.pairwise_append.mpr ⟨up.2.2, new.2.2, fun a hm b _ hp => ?_⟩⟩
    · rcases List.mem_append.mp hi with hi | hi
      · exact Nat.lt_succ_of_lt (up.2.1 i hi)
      · exact new.2.1 i hi
    · exact absurd hp (ha a (hs.subset hm))

def stackShielded : Shielded Stacked StackedP where
  emb := id
  Inv := stackInv
  start_eq _ := rfl
  start {r n} h := ⟨fun _ h => (nomatch h), fun i hi => by rcases List.mem_singleton.mp hi with rfl; exact h,
    List.pairwise_singleton _ _⟩
  mono h := ⟨fun p hp => Nat.lt_succ_of_lt (h.1 p hp), fun i hi => Nat.lt_succ_of_lt (h.2.1 i hi), h.2.2⟩
  read {P n u s} h hu := by
    refine ⟨?_, (stackP_read h hu).2⟩
    show stackReadP P u s = (stackRead u s).map id
    rw [(stackP_read h hu).1, Option.map_id_fun, id]
  write {P n u s} h hu := by
    refine ⟨?_, (stackP_write h hu).2⟩
    show stackWriteP P u s = (stackWrite u s).map id
    rw [(stackP_write h hu).1, Option.map_id_fun, id]
  retag {P n k u s} h hu := by
    cases k with
    | excl =>
      obtain ⟨h1, h2⟩ := stackP_write h hu
      refine ⟨?_, fun s' e => ?_⟩
      · show (stackWriteP P u s).map _ = ((stackWrite u s).map _).map id
        rw [h1, Option.map_id_fun, id]
      · replace e : (stackWrite u s).map (⟨n, .unique⟩ :: ·) = some s' := e
        cases hr : stackWrite u s with
        | none => rw [hr] at e; nomatch e
        | some x =>
          rw [hr] at e
          cases e
          exact ⟨((h2 x hr).push .unique).1, fun _ => ((h2 x hr).push .unique).2⟩
    | shared =>
      obtain ⟨h1, h2⟩ := stackP_read h hu
      refine ⟨?_, fun s' e => ?_⟩
      · show (stackReadP P u s).map _ = ((stackRead u s).map _).map id
        rw [h1, Option.map_id_fun, id]
      · replace e : (stackRead u s).map (⟨n, .sharedRO⟩ :: ·) = some s' := e
        cases hr : stackRead u s with
        | none => rw [hr] at e; nomatch e
        | some x =>
          rw [hr] at e
          cases e
          exact ⟨((h2 x hr).push .sharedRO).1, fun _ => ((h2 x hr).push .sharedRO).2⟩
    | raw =>
      refine ⟨?_, fun s' e => ⟨stackP_raw h hu e, fun h => absurd rfl h⟩⟩
      show stackRetag .raw u n s = (stackRetag .raw u n s).map id
      rw [Option.map_id_fun, id]
  leave {P n q s} h := ⟨rfl, fun p hp => h.1 p (.tail _ hp), h.2.1, h.2.2.imp fun {a b} hab hp => hab (.tail _ hp)⟩

/-! Tree Borrows. -/

/-- What holds of an argument: what is named by newer tags was made of it, what it was made of may be read, and what is
apart from it was not written to since. -/
structure Guarded (s : List Node) (p : Nat) (n : Node) : Prop where
  id : n.id = p
  made : ∀ m ∈ s, ∀ x ∈ m.names, p ≤ x → p ∈ m.line
  readable : ∀ m ∈ s, m.id ∈ n.line → m.state.mayRead = true
  calm : ∀ m ∈ s, m.id ∉ n.line → p ∉ m.line → m.state ≠ .active
  above : n.state = .active → ∀ m ∈ s, m.id ∈ n.line → m.state = .active
  apart : n.state = .active → ∀ m ∈ s, m.id ∉ n.line → p ∉ m.line → m.state = .disabled

structure treeInv (P : List Nat) (k : Nat) (s : List Node) : Prop where
  args : ∀ p ∈ P, p < k
  bounds : ∀ m ∈ s, m.id < k ∧ (∀ x ∈ m.names, x < k) ∧ (∀ x ∈ m.line, x < k)
  trans : ∀ a ∈ s, ∀ m ∈ s, a.id ∈ m.line → ∀ x ∈ a.line, x ∈ m.line
  line : ∀ a ∈ s, ∀ b ∈ s, ∀ m ∈ s, a.id ∈ m.line → b.id ∈ m.line → a.id ∈ b.line ∨ b.id ∈ a.line
  self : ∀ m ∈ s, m.id ∈ m.line
  guarded : ∀ p ∈ P, ∃ n, find p s = some n ∧ Guarded s p n

/-- Whatever is used was made of all arguments. -/
theorem treeInv.of {P : List Nat} {k u : Nat} {s : List Node} (h : treeInv P k s) (hu : ∀ p ∈ P, p ≤ u) {n : Node}
    (hn : find u s = some n) : ∀ p ∈ P, p ∈ n.line := by
  intro p hp
  obtain ⟨_, _, g⟩ := h.guarded p hp
  exact g.made n (find_names hn).1 u (find_names hn).2 (hu p hp)

/-- Changes of states that keep what holds of arguments. -/
theorem treeInv.map {P : List Nat} {k : Nat} {s : List Node} {f : Node → Node} (hf : Steady f) (h : treeInv P k s)
    (hg : ∀ p ∈ P, ∀ n, find p s = some n → Guarded s p n → Guarded (s.map f) p (f n)) : treeInv P k (s.map f) := by
  refine ⟨h.args, fun m hm => ?_, fun a ha m hm hl x hx => ?_, fun a ha b hb m hm hal hbl => ?_, fun m hm => ?_,
    fun p hp => ?_⟩
  · (replace hm := List.mem_map.mp hm; obtain ⟨m, hm, rfl⟩ := hm)
    rw [(hf m).1, (hf m).2.1, (hf m).2.2]
    exact h.bounds m hm
  · (replace hm := List.mem_map.mp hm; obtain ⟨m, hm, rfl⟩ := hm)
    (replace ha := List.mem_map.mp ha; obtain ⟨a, ha, rfl⟩ := ha)
    rw [(hf a).1, (hf m).2.2] at hl
    rw [(hf a).2.2] at hx
    rw [(hf m).2.2]
    exact h.trans a ha m hm hl x hx
  · (replace hm := List.mem_map.mp hm; obtain ⟨m, hm, rfl⟩ := hm)
    (replace ha := List.mem_map.mp ha; obtain ⟨a, ha, rfl⟩ := ha)
    (replace hb := List.mem_map.mp hb; obtain ⟨b, hb, rfl⟩ := hb)
    rw [(hf a).1, (hf m).2.2] at hal
    rw [(hf b).1, (hf m).2.2] at hbl
    rw [(hf a).1, (hf a).2.2, (hf b).1, (hf b).2.2]
    exact h.line a ha b hb m hm hal hbl
  · (replace hm := List.mem_map.mp hm; obtain ⟨m, hm, rfl⟩ := hm)
    rw [(hf m).1, (hf m).2.2]
    exact h.self m hm
  · obtain ⟨n, h1, h2⟩ := h.guarded p hp
    exact ⟨f n, by rw [find_map fun m => (hf m).2.1, h1]; rfl, hg p hp n h1 h2⟩

theorem foreignRead_calm (st : State) : st.foreignRead ≠ .active := by cases st <;> exact fun h => nomatch h

theorem treeInv.read {P : List Nat} {k u : Nat} {s : List Node} (h : treeInv P k s) (hu : ∀ p ∈ P, p ≤ u) {x : Node}
    (hx : find u s = some x) : treeInv P k (s.map (readMap x.line)) := by
  refine h.map (readMap_steady _) fun p hp n hn g => ?_
  have hpx := h.of hu hx p hp
  have hnx : n.id ∈ x.line := by rw [g.id]; exact hpx
  have hin := h.trans n (find_names hn).1 x (find_names hx).1 hnx
  have hfn : readMap x.line n = n := if_pos hnx
  rw [hfn]
  have same : ∀ m, m.id ∈ x.line → readMap x.line m = m := fun m hm => if_pos hm
  have st := readMap_steady x.line
  refine ⟨g.id, fun m hm y hy hle => ?_, fun m hm hl => ?_, fun m hm hl hp => ?_, fun ha m hm hl => ?_,
    fun ha m hm hl hp => ?_⟩ <;> (replace hm := List.mem_map.mp hm; obtain ⟨m, hm, rfl⟩ := hm)
  · rw [(st m).2.1] at hy
    rw [(st m).2.2]
    exact g.made m hm y hy hle
  · rw [(st m).1] at hl
    rw [same m (hin _ hl)]
    exact g.readable m hm hl
  · rw [(st m).1] at hl
    rw [(st m).2.2] at hp
    unfold readMap
    split
    · exact g.calm m hm hl hp
    · exact foreignRead_calm m.state
  · rw [(st m).1] at hl
    rw [same m (hin _ hl)]
    exact g.above ha m hm hl
  · rw [(st m).1] at hl
    rw [(st m).2.2] at hp
    have := g.apart ha m hm hl hp
    unfold readMap
    split
    · exact this
    · show m.state.foreignRead = .disabled
      rw [this]
      rfl

theorem treeInv.write {P : List Nat} {k u : Nat} {s : List Node} (h : treeInv P k s) (hu : ∀ p ∈ P, p ≤ u) {x : Node}
    (hx : find u s = some x) : treeInv P k (s.map (writeMap x.line)) := by
  refine h.map (writeMap_steady _) fun p hp n hn g => ?_
  have hpx := h.of hu hx p hp
  have hnx : n.id ∈ x.line := by rw [g.id]; exact hpx
  have hin := h.trans n (find_names hn).1 x (find_names hx).1 hnx
  have act : ∀ m, m.id ∈ x.line → (writeMap x.line m).state = .active := fun m hm => if_pos hm
  have off : ∀ m ∈ s, m.id ∉ n.line → p ∉ m.line → (writeMap x.line m).state = .disabled := by
    intro m hm hl hpm
    refine if_neg fun hmx => ?_
    rcases h.line m hm n (find_names hn).1 x (find_names hx).1 hmx hnx with h | h
    · exact hl h
    · rw [g.id] at h
      exact hpm h
  refine ⟨g.id, fun m hm y hy hle => ?_, fun m hm hl => ?_, fun m hm hl hp => ?_, fun _ m hm hl => ?_,
    fun _ m hm hl hp => ?_⟩ <;> (replace hm := List.mem_map.mp hm; obtain ⟨m, hm, rfl⟩ := hm)
  · exact g.made m hm y hy hle
  · rw [act m (hin _ hl)]
    rfl
  · rw [off m hm hl hp]
    exact fun h => nomatch h
  · exact act m (hin _ hl)
  · exact off m hm hl hp

/-- A new node. -/
theorem treeInv.push {P : List Nat} {k : Nat} {s : List Node} (h : treeInv P k s) {x : Node} (hx : x ∈ s)
    (hp : ∀ p ∈ P, p ∈ x.line) (st : State) : treeInv P (k + 1) (⟨k, [k], k :: x.line, st⟩ :: s) := by
  have fresh : ∀ m ∈ s, k ∉ m.line := fun m hm hl => Nat.lt_irrefl k ((h.bounds m hm).2.2 k hl)
  refine ⟨fun p hp => Nat.lt_succ_of_lt (h.args p hp), fun m hm => ?_, fun a ha m hm hl y hy => ?_,
    fun a ha b hb m hm hal hbl => ?_, fun m hm => ?_, fun p hpP => ?_⟩
  · rcases List.mem_cons.mp hm with rfl | hm
    · refine ⟨Nat.lt_succ_self k, fun y hy => ?_, fun y hy => ?_⟩
      · rcases List.mem_singleton.mp hy with rfl
        exact Nat.lt_succ_self y
      · rcases List.mem_cons.mp hy with rfl | hy
        · exact Nat.lt_succ_self y
        · exact Nat.lt_succ_of_lt ((h.bounds x hx).2.2 y hy)
    · obtain ⟨h1, h2, h3⟩ := h.bounds m hm
      exact ⟨Nat.lt_succ_of_lt h1, fun y hy => Nat.lt_succ_of_lt (h2 y hy), fun y hy => Nat.lt_succ_of_lt (h3 y hy)⟩
  · rcases List.mem_cons.mp ha with rfl | ha
    · rcases List.mem_cons.mp hm with rfl | hm
      · exact hy
      · exact absurd hl (fresh m hm)
    · rcases List.mem_cons.mp hm with rfl | hm
      · rcases List.mem_cons.mp hl with hl | hl
        · exact absurd hl (Nat.ne_of_lt (h.bounds a ha).1)
        · exact .tail _ (h.trans a ha x hx hl y hy)
      · exact h.trans a ha m hm hl y hy
  · rcases List.mem_cons.mp hm with rfl | hm
    · rcases List.mem_cons.mp ha with rfl | ha
      · exact .inr hbl
      · rcases List.mem_cons.mp hb with rfl | hb
        · exact .inl hal
        · rcases List.mem_cons.mp hal with hal | hal
          · exact absurd hal (Nat.ne_of_lt (h.bounds a ha).1)
          · rcases List.mem_cons.mp hbl with hbl | hbl
            · exact absurd hbl (Nat.ne_of_lt (h.bounds b hb).1)
            · exact h.line a ha b hb x hx hal hbl
    · rcases List.mem_cons.mp ha with rfl | ha
      · exact absurd hal (fresh m hm)
      · rcases List.mem_cons.mp hb with rfl | hb
        · exact absurd hbl (fresh m hm)
        · exact h.line a ha b hb m hm hal hbl
  · rcases List.mem_cons.mp hm with rfl | hm
    · exact .head _
    · exact h.self m hm
  · obtain ⟨n, h1, g⟩ := h.guarded p hpP
    have hk : p ≠ k := Nat.ne_of_lt (h.args p hpP)
    have hkn : k ∉ n.line := fresh n (find_names h1).1
    refine ⟨n, ?_, g.id, fun m hm y hy hle => ?_, fun m hm hl => ?_, fun m hm hl hpl => ?_, fun ha m hm hl => ?_,
      fun ha m hm hl hpl => ?_⟩
    · unfold find
      rw [List.find?_cons_of_neg (by simp [hk])]
      exact h1
    · rcases List.mem_cons.mp hm with rfl | hm
      · exact .tail _ (hp p hpP)
      · exact g.made m hm y hy hle
    · rcases List.mem_cons.mp hm with rfl | hm
      · exact absurd hl hkn
      · exact g.readable m hm hl
    · rcases List.mem_cons.mp hm with rfl | hm
      · exact absurd (List.mem_cons_of_mem _ (hp p hpP)) hpl
      · exact g.calm m hm hl hpl
    · rcases List.mem_cons.mp hm with rfl | hm
      · exact absurd hl hkn
      · exact g.above ha m hm hl
    · rcases List.mem_cons.mp hm with rfl | hm
      · exact absurd (List.mem_cons_of_mem _ (hp p hpP)) hpl
      · exact g.apart ha m hm hl hpl

/-- A new node is an argument. -/
theorem treeInv.enter {P : List Nat} {k : Nat} {s : List Node} (h : treeInv P k s) {x : Node} (hx : x ∈ s)
    (hp : ∀ p ∈ P, p ∈ x.line) {st : State} (hst : st = .reserved ∨ st = .frozen)
    (readable : ∀ m ∈ s, m.id ∈ x.line → m.state.mayRead = true) (calm : ∀ m ∈ s, m.id ∉ x.line → m.state ≠ .active) :
    treeInv (k :: P) (k + 1) (⟨k, [k], k :: x.line, st⟩ :: s) := by
  have hpush := h.push hx hp st
  have hna : st ≠ .active := by rcases hst with rfl | rfl <;> exact fun h => nomatch h
  refine ⟨fun p hp => ?_, hpush.bounds, hpush.trans, hpush.line, hpush.self, fun p hpP => ?_⟩
  · rcases List.mem_cons.mp hp with rfl | hp
    · exact Nat.lt_succ_self p
    · exact hpush.args p hp
  · rcases List.mem_cons.mp hpP with rfl | hpP
    · refine ⟨⟨p, [p], p :: x.line, st⟩, by simp [find], rfl, fun m hm y hy hle => ?_, fun m hm hl => ?_,
        fun m hm hl _ => ?_, fun ha => absurd ha hna, fun ha => absurd ha hna⟩
      · rcases List.mem_cons.mp hm with rfl | hm
        · exact .head _
        · have := (h.bounds m hm).2.1 y hy
          omega
      · rcases List.mem_cons.mp hm with rfl | hm
        · rcases hst with rfl | rfl <;> rfl
        · rcases List.mem_cons.mp hl with hl | hl
          · exact absurd hl (Nat.ne_of_lt (h.bounds m hm).1)
          · exact readable m hm hl
      · rcases List.mem_cons.mp hm with rfl | hm
        · exact absurd (List.mem_cons_self ..) hl
        · exact calm m hm fun h => hl (List.mem_cons_of_mem _ h)
    · exact hpush.guarded p hpP

theorem treeInv.mono {P : List Nat} {k : Nat} {s : List Node} (h : treeInv P k s) : treeInv P (k + 1) s :=
  ⟨fun p hp => Nat.lt_succ_of_lt (h.args p hp), fun m hm => ⟨Nat.lt_succ_of_lt (h.bounds m hm).1,
    fun y hy => Nat.lt_succ_of_lt ((h.bounds m hm).2.1 y hy), fun y hy => Nat.lt_succ_of_lt ((h.bounds m hm).2.2 y hy)⟩,
    h.trans, h.line, h.self, h.guarded⟩

/-- A new name. -/
theorem treeInv.name {P : List Nat} {k u : Nat} {s : List Node} (h : treeInv P k s) (hu : ∀ p ∈ P, p ≤ u) :
    treeInv P (k + 1) (s.map (nameMap u k)) := by
  have keep := nameMap_keeps u k
  have names : ∀ m, ∀ y ∈ (nameMap u k m).names, y ∈ m.names ∨ (y = k ∧ u ∈ m.names) := by
    intro m y hy
    unfold nameMap at hy
    split at hy
    · rename_i hm
      rcases List.mem_cons.mp hy with rfl | hy
      · exact .inr ⟨rfl, hm⟩
      · exact .inl hy
    · exact .inl hy
  refine ⟨fun p hp => Nat.lt_succ_of_lt (h.args p hp), fun m hm => ?_, fun a ha m hm hl x hx => ?_,
    fun a ha b hb m hm hal hbl => ?_, fun m hm => ?_, fun p hp => ?_⟩
  · (replace hm := List.mem_map.mp hm; obtain ⟨m, hm, rfl⟩ := hm)
    obtain ⟨h1, h2, h3⟩ := h.bounds m hm
    rw [(keep m).1, (keep m).2.1]
    refine ⟨Nat.lt_succ_of_lt h1, fun y hy => ?_, fun y hy => Nat.lt_succ_of_lt (h3 y hy)⟩
    rcases names m y hy with hy | ⟨rfl, _⟩
    · exact Nat.lt_succ_of_lt (h2 y hy)
    · exact Nat.lt_succ_self y
  · (replace hm := List.mem_map.mp hm; obtain ⟨m, hm, rfl⟩ := hm)
    (replace ha := List.mem_map.mp ha; obtain ⟨a, ha, rfl⟩ := ha)
    rw [(keep a).1, (keep m).2.1] at hl
    rw [(keep a).2.1] at hx
    rw [(keep m).2.1]
    exact h.trans a ha m hm hl x hx
  · (replace hm := List.mem_map.mp hm; obtain ⟨m, hm, rfl⟩ := hm)
    (replace ha := List.mem_map.mp ha; obtain ⟨a, ha, rfl⟩ := ha)
    (replace hb := List.mem_map.mp hb; obtain ⟨b, hb, rfl⟩ := hb)
    rw [(keep a).1, (keep m).2.1] at hal
    rw [(keep b).1, (keep m).2.1] at hbl
    rw [(keep a).1, (keep a).2.1, (keep b).1, (keep b).2.1]
    exact h.line a ha b hb m hm hal hbl
  · (replace hm := List.mem_map.mp hm; obtain ⟨m, hm, rfl⟩ := hm)
    rw [(keep m).1, (keep m).2.1]
    exact h.self m hm
  · obtain ⟨n, h1, g⟩ := h.guarded p hp
    have hk : p ≠ k := Nat.ne_of_lt (h.args p hp)
    have st : ∀ m, (nameMap u k m).state = m.state := fun m => by unfold nameMap; split <;> rfl
    refine ⟨nameMap u k n, ?_, (keep n).1.trans g.id, fun m hm y hy hle => ?_, fun m hm hl => ?_, fun m hm hl hpl => ?_,
      fun ha m hm hl => ?_, fun ha m hm hl hpl => ?_⟩
    · unfold find at h1 ⊢
      rw [List.find?_map]
      have : ((fun n => decide (p ∈ n.names)) ∘ nameMap u k) = fun n : Node => decide (p ∈ n.names) := by
        funext m
        show decide (p ∈ (nameMap u k m).names) = decide (p ∈ m.names)
        unfold nameMap
        split
        · simp [hk]
        · rfl
      rw [this, h1]
      rfl
    all_goals (replace hm := List.mem_map.mp hm; obtain ⟨m, hm, rfl⟩ := hm)
    · rw [(keep m).2.1]
      rcases names m y hy with hy | ⟨_, hy⟩
      · exact g.made m hm y hy hle
      · exact g.made m hm u hy (hu p hp)
    · rw [(keep m).1, (keep n).2.1] at hl
      rw [st]
      exact g.readable m hm hl
    · rw [(keep m).1, (keep n).2.1] at hl
      rw [(keep m).2.1] at hpl
      rw [st]
      exact g.calm m hm hl hpl
    · rw [(keep m).1, (keep n).2.1] at hl
      rw [st] at ha ⊢
      exact g.above ha m hm hl
    · rw [(keep m).1, (keep n).2.1] at hl
      rw [(keep m).2.1] at hpl
      rw [st] at ha ⊢
      exact g.apart ha m hm hl hpl

/-- A tree without conflicts. -/
abbrev still (s : List Node) : Grove := ⟨s, []⟩

theorem conflicts_none {P : List Nat} {f : Node → Bool} {s : List Node} (h : ∀ m ∈ s, f m = true → m.id ∉ P) :
    conflictsOf P f s = [] := by
  unfold conflictsOf
  rw [List.filter_eq_nil_iff.mpr]
  · rfl
  · intro m hm hc
    simp only [Bool.and_eq_true, decide_eq_true_eq] at hc
    exact h m hm hc.1.1 hc.1.2

theorem treeRead_some {u : Nat} {s s' : List Node} (h : treeRead u s = some s') : ∃ n, find u s = some n ∧
    (∀ m ∈ s, m.id ∈ n.line → m.state.mayRead = true) ∧ s' = s.map (readMap n.line) := by
  unfold treeRead at h
  cases hf : find u s with
  | none => rw [hf] at h; nomatch h
  | some n =>
    rw [hf] at h
    simp only at h
    split at h
    · rename_i ha
      cases h
      refine ⟨n, rfl, fun m hm hl => ?_, rfl⟩
      have := List.all_eq_true.mp ha m hm
      simpa [hl] using this
    · nomatch h

theorem treeWrite_some {u : Nat} {s s' : List Node} (h : treeWrite u s = some s') : ∃ n, find u s = some n ∧
    s' = s.map (writeMap n.line) := by
  unfold treeWrite at h
  cases hf : find u s with
  | none => rw [hf] at h; nomatch h
  | some n =>
    rw [hf] at h
    simp only at h
    split at h
    · cases h
      exact ⟨n, rfl, rfl⟩
    · nomatch h

theorem treeP_read {P : List Nat} {k u : Nat} {s : List Node} (h : treeInv P k s) (hu : ∀ p ∈ P, p ≤ u) :
    treeReadP P u (still s) = (treeRead u s).map still := by
  unfold treeReadP
  cases hf : find u s with
  | none =>
    have : treeRead u s = none := by unfold treeRead; rw [hf]
    simp only [this]
    rfl
  | some n =>
    have hin := h.of hu hf
    simp only
    rw [conflicts_none fun m _ hm hp => by simp [hin _ hp] at hm, if_neg]
    · rfl
    · intro ha
      obtain ⟨m, _, hm⟩ := List.any_eq_true.mp ha
      simp only [Bool.and_eq_true, decide_eq_true_eq, Bool.not_eq_true', decide_eq_false_iff_not] at hm
      exact hm.1.1 (hin _ hm.1.2)

theorem treeP_write {P : List Nat} {k u : Nat} {s : List Node} (h : treeInv P k s) (hu : ∀ p ∈ P, p ≤ u) :
    treeWriteP P u (still s) = (treeWrite u s).map still := by
  unfold treeWriteP
  cases hf : find u s with
  | none =>
    have : treeWrite u s = none := by unfold treeWrite; rw [hf]
    simp only [this]
    rfl
  | some n =>
    have hin := h.of hu hf
    simp only
    rw [if_neg]
    intro ha
    obtain ⟨m, _, hm⟩ := List.any_eq_true.mp ha
    simp only [Bool.and_eq_true, decide_eq_true_eq] at hm
    have := hin _ hm.1
    simp [this] at hm

theorem treeP_leave {P : List Nat} {k q : Nat} {s : List Node} (h : treeInv (q :: P) k s) (hP : ∀ p ∈ P, p ≤ q) :
    treeLeave P q (still s) = some (still s) := by
  obtain ⟨n, hf, g⟩ := h.guarded q (.head _)
  have hin : ∀ p ∈ P, p ∈ n.line := fun p hp => by
    obtain ⟨_, _, g'⟩ := h.guarded p (.tail _ hp)
    exact g'.made n (find_names hf).1 q (find_names hf).2 (hP p hp)
  have node : ∀ (m : Node) (st : State), m.state = st → { m with state := st } = m := fun m st e => by rw [← e]
  unfold treeLeave
  simp only [hf]
  split
  · rename_i ha
    rw [if_pos]
    · congr 2
      refine (List.map_congr_left fun m hm => ?_).trans (List.map_id s)
      show (if _ then _ else _) = m
      split
      · rename_i hl
        exact node m _ (g.above ha m hm hl)
      · rename_i hl
        split
        · rfl
        · rename_i hq
          exact node m _ (g.apart ha m hm hl hq)
    · rw [List.all_eq_true]
      intro m hm
      split
      · rename_i hl
        rw [g.above ha m hm hl]
        rfl
      · rename_i hl
        by_cases hq : q ∈ m.line
        · simp [hq]
        · simp [g.apart ha m hm hl hq]
  · rename_i ha
    rw [if_pos]
    · rw [conflicts_none fun m _ hm hp => by simp [hin _ hp] at hm]
      congr 2
      refine (List.map_congr_left fun m hm => ?_).trans (List.map_id s)
      show (if _ then _ else _) = m
      split
      · rfl
      · rename_i hl
        split
        · rfl
        · rename_i hq
          have := g.calm m hm hl hq
          refine node m _ ?_
          revert this
          cases m.state <;> simp [State.foreignRead]
    · rw [List.all_eq_true]
      intro m hm
      split
      · rename_i hl
        exact g.readable m hm hl
      · rename_i hl
        by_cases hq : q ∈ m.line
        · simp [hq]
        · simp [g.calm m hm hl hq]

/-- Arguments, newest first. -/
def treeShield (P : List Nat) (k : Nat) (s : List Node) : Prop := treeInv P k s ∧ P.Pairwise fun a b => b ≤ a

theorem treeP_retag {P : List Nat} {k u : Nat} {s : List Node} (h : treeInv P k s) (hu : ∀ p ∈ P, p ≤ u) {st : State}
    (hst : st = .reserved ∨ st = .frozen) {s' : List Node} (e : (match find u s with
      | none => none
      | some n => (treeRead u s).map (⟨k, [k], k :: n.line, st⟩ :: ·)) = some s') :
    treeInv P (k + 1) s' ∧ treeInv (k :: P) (k + 1) s' := by
  cases hf : find u s with
  | none => rw [hf] at e; nomatch e
  | some n =>
    rw [hf] at e
    simp only at e
    cases hr : treeRead u s with
    | none => rw [hr] at e; nomatch e
    | some x =>
      rw [hr] at e
      cases e
      obtain ⟨n', h1, h2, rfl⟩ := treeRead_some hr
      rw [hf] at h1
      cases h1
      have hm : n ∈ s.map (readMap n.line) :=
        List.mem_map.mpr ⟨n, (find_names hf).1, if_pos (h.self n (find_names hf).1)⟩
      have hin := h.of hu hf
      have h' := h.read hu hf
      refine ⟨h'.push hm hin st, h'.enter hm hin hst (fun m hm hl => ?_) fun m hm hl => ?_⟩
      · (replace hm := List.mem_map.mp hm; obtain ⟨m, hm, rfl⟩ := hm)
        rw [(readMap_steady _ m).1] at hl
        exact readMap_see _ _ (h2 m hm hl)
      · (replace hm := List.mem_map.mp hm; obtain ⟨m, hm, rfl⟩ := hm)
        rw [(readMap_steady _ m).1] at hl
        unfold readMap
        rw [if_neg hl]
        exact foreignRead_calm m.state

def treeShielded : Shielded Tree TreeP where
  emb := still
  Inv := treeShield
  start_eq _ := rfl
  start {r n} h := by
    refine ⟨⟨fun _ h => (nomatch h), fun m hm => ?_, fun a ha m hm _ x hx => ?_, fun a ha b hb m hm hal hbl => ?_,
      fun m hm => ?_, fun _ h => (nomatch h)⟩, .nil⟩
    · rcases List.mem_singleton.mp hm with rfl
      refine ⟨h, fun x hx => ?_, fun x hx => ?_⟩ <;>
      · rcases List.mem_singleton.mp hx with rfl
        exact h
    · rcases List.mem_singleton.mp hm with rfl
      rcases List.mem_singleton.mp ha with rfl
      exact hx
    · rcases List.mem_singleton.mp hb with rfl
      rcases List.mem_singleton.mp ha with rfl
      exact .inl (.head _)
    · rcases List.mem_singleton.mp hm with rfl
      exact .head _
  mono h := ⟨h.1.mono, h.2⟩
  read {P n u s} h hu := ⟨treeP_read h.1 hu, fun s' e => by
    obtain ⟨x, h1, _, rfl⟩ := treeRead_some e
    exact ⟨h.1.read hu h1, h.2⟩⟩
  write {P n u s} h hu := ⟨treeP_write h.1 hu, fun s' e => by
    obtain ⟨x, h1, rfl⟩ := treeWrite_some e
    exact ⟨h.1.write hu h1, h.2⟩⟩
  retag {P n k u s} h hu := by
    have sorted : (n :: P).Pairwise fun a b => b ≤ a := .cons (fun p hp => Nat.le_of_lt (h.1.args p hp)) h.2
    cases k with
    | excl =>
      refine ⟨?_, fun s' e => ?_⟩
      · show (match find u s with
          | none => none
          | some n' => (treeReadP P u (still s)).map _) = (match find u s with
          | none => none
          | some n' => (treeRead u s).map _).map still
        cases find u s with
        | none => rfl
        | some x =>
          simp only [treeP_read h.1 hu, Option.map_map]
          rfl
      · obtain ⟨h1, h2⟩ := treeP_retag h.1 hu (.inl rfl) e
        exact ⟨⟨h1, h.2⟩, fun _ => ⟨h2, sorted⟩⟩
    | shared =>
      refine ⟨?_, fun s' e => ?_⟩
      · show (match find u s with
          | none => none
          | some n' => (treeReadP P u (still s)).map _) = (match find u s with
          | none => none
          | some n' => (treeRead u s).map _).map still
        cases find u s with
        | none => rfl
        | some x =>
          simp only [treeP_read h.1 hu, Option.map_map]
          rfl
      · obtain ⟨h1, h2⟩ := treeP_retag h.1 hu (.inr rfl) e
        exact ⟨⟨h1, h.2⟩, fun _ => ⟨h2, sorted⟩⟩
    | raw =>
      refine ⟨rfl, fun s' e => ⟨⟨?_, h.2⟩, fun h => absurd rfl h⟩⟩
      replace e : (match find u s with
        | none => none
        | some _ => some (s.map (nameMap u n))) = some s' := e
      cases hf : find u s with
      | none => rw [hf] at e; nomatch e
      | some x =>
        rw [hf] at e
        cases e
        exact h.1.name hu
  leave {P n q s} h := ⟨treeP_leave h.1 (fun _ hp => List.rel_of_pairwise_cons h.2 hp),
    ⟨fun p hp => h.1.args p (.tail _ hp), h.1.bounds, h.1.trans, h.1.line, h.1.self,
      fun p hp => h.1.guarded p (.tail _ hp)⟩, h.2.of_cons⟩

end Oct.Alias
