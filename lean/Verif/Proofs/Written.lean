import Verif.Proofs.StackedBorrows
import Verif.Proofs.BorrowsEnded
/-
What is written through references that are made of the owner ends all that were made before.
-/
namespace Oct.Alias
open Spec Sound

/-- What happens there only uses tags from `t` on, and makes references of the owner. -/
def Inner (t : Nat) : Event → Prop
  | .retag .raw a b _ => t ≤ a ∧ t ≤ b
  | .retag _ a b _ => (a = 0 ∨ t ≤ a) ∧ t ≤ b
  | .read a _ => a = 0 ∨ t ≤ a
  | .write a _ => t ≤ a

/-- All that happens at `l` is so. -/
def Inward (t l : Nat) (es : List Event) : Prop := ∀ e ∈ es, e.region.has l = true → Inner t e

theorem Inward.append {t l : Nat} {es fs : List Event} (h : Inward t l es) (h' : Inward t l fs) : Inward t l (es ++ fs) := by
  intro e he
  rcases List.mem_append.mp he with he | he
  · exact h e he
  · exact h' e he

theorem act_miss {σ : Type} {R : Rules σ} {l : Nat} {e : Event} (h : ¬ e.region.has l = true) (s : σ) :
    e.act R l s = some s := by
  cases e with
  | retag k a b r => exact miss_retag h
  | read a r => exact miss_read h
  | write a r => exact miss_write h

/-! Stacked Borrows. -/

/-- The owner is at the bottom. -/
def Bottom : List Item → Prop
  | [] => False
  | [i] => i = ⟨0, .unique⟩
  | i :: j :: s => i.tag ≠ 0 ∧ Bottom (j :: s)

theorem Bottom.push {i : Item} : {s : List Item} → Bottom s → i.tag ≠ 0 → Bottom (i :: s)
  | _ :: _, h, hi => ⟨hi, h⟩

theorem Bottom.rest {x : Item} : {A B : List Item} → Bottom (A ++ x :: B) → Bottom (x :: B) ∧ ∀ i ∈ A, i.tag ≠ 0
  | [], _, h => ⟨h, fun _ hi => nomatch hi⟩
  | [a], _, h => ⟨h.2, fun i hi => by rw [List.mem_singleton.mp hi]; exact h.1⟩
  | a :: b :: A, B, h => by
    obtain ⟨h1, h2⟩ := Bottom.rest (A := b :: A) h.2
    refine ⟨h1, fun i hi => ?_⟩
    rcases List.mem_cons.mp hi with rfl | hi
    · exact h.1
    · exact h2 i hi

theorem Bottom.pushes {s : List Item} (h : Bottom s) : {A : List Item} → (∀ i ∈ A, i.tag ≠ 0) → Bottom (A ++ s)
  | [], _ => h
  | _ :: _, hA => (h.pushes fun i hi => hA i (.tail _ hi)).push (hA _ (.head _))

theorem bottom_of {s : List Item} {n : Nat} (hw : stackW 0 n s) : Bottom s := by
  obtain ⟨_, A, rfl, hA⟩ := hw
  exact Bottom.pushes (s := [⟨0, .unique⟩]) rfl fun i hi => (hA i hi).1

theorem cut_parts {p : Item → Bool} : {s : List Item} → {q : List Item × Item × List Item} → cut p s = some q →
    s = q.1 ++ q.2.1 :: q.2.2 ∧ p q.2.1 = true
  | [], _, h => nomatch h
  | i :: s, q, h => by
    unfold cut at h
    split at h
    · rename_i hp
      cases h
      exact ⟨rfl, hp⟩
    · cases hc : cut p s with
      | none => rw [hc] at h; cases h
      | some q' =>
        rw [hc] at h
        cases h
        obtain ⟨e, hp⟩ := cut_parts hc
        exact ⟨congrArg (i :: ·) e, hp⟩

theorem Bottom.owner {x : Item} {B : List Item} (h : Bottom (x :: B)) (hx : x.tag = 0) : x = ⟨0, .unique⟩ ∧ B = [] := by
  cases B with
  | nil => exact ⟨h, rfl⟩
  | cons => exact absurd hx h.1

theorem peers_mem {x : Item} {A : List Item} {i : Item} (h : i ∈ peers x A) : i ∈ A := by
  unfold peers at h
  split at h
  · exact List.mem_reverse.mp ((List.takeWhile_sublist _).mem (List.mem_reverse.mp h))
  · cases h

/-- Everything but the owner and what was made since `t` is gone. -/
def Gone (t : Nat) (s : List Item) : Prop := ∀ i ∈ s, i.tag = 0 ∨ t ≤ i.tag

/-- Nothing that was made since `t` may write. -/
def Meek (t : Nat) (s : List Item) : Prop := ∀ i ∈ s, t ≤ i.tag → i.perm ≠ .unique ∧ i.perm ≠ .sharedRW

theorem stack_read_keeps {t a : Nat} {s s' : List Item} (hb : Bottom s) (hr : stackRead a s = some s') :
    Bottom s' ∧ (Gone t s → Gone t s') ∧ (Meek t s → Meek t s') := by
  unfold stackRead at hr
  cases hc : cut (Item.reads a) s with
  | none => rw [hc] at hr; cases hr
  | some q =>
    rw [hc] at hr
    cases hr
    obtain ⟨rfl, _⟩ := cut_parts hc
    obtain ⟨h1, h2⟩ := hb.rest
    have tag : ∀ i : Item, i.disable.tag = i.tag := fun i => by unfold Item.disable; split <;> rfl
    refine ⟨h1.pushes fun i hi => ?_, fun hg i hi => ?_, fun hg i hi ht => ?_⟩
    · obtain ⟨j, hj, rfl⟩ := List.mem_map.mp hi
      rw [tag]
      exact h2 j hj
    · rcases List.mem_append.mp hi with hi | hi
      · obtain ⟨j, hj, rfl⟩ := List.mem_map.mp hi
        rw [tag]
        exact hg j (List.mem_append_left _ hj)
      · exact hg i (List.mem_append_right _ hi)
    · rcases List.mem_append.mp hi with hi | hi
      · obtain ⟨j, hj, rfl⟩ := List.mem_map.mp hi
        rw [tag] at ht
        have := hg j (List.mem_append_left _ hj) ht
        unfold Item.disable
        rw [if_neg this.1]
        exact this
      · exact hg i (List.mem_append_right _ hi) ht

/-- Who may write since `t` does so when all else is gone. -/
theorem gone_of {t a : Nat} {s : List Item} (h : Gone t s ∨ Meek t s) (ha : t ≤ a) {q : List Item × Item × List Item}
    (hc : cut (Item.writes a) s = some q) : Gone t s := by
  obtain ⟨e, hp⟩ := cut_parts hc
  rcases h with h | h
  · exact h
  · simp only [Item.writes, Bool.and_eq_true, decide_eq_true_eq, Bool.or_eq_true] at hp
    have := h q.2.1 (by rw [e]; exact List.mem_append_right _ (.head _)) (by omega)
    rcases hp.2 with hp | hp
    · exact absurd hp this.1
    · exact absurd hp this.2

theorem stack_write_ends {t a : Nat} (_ : 0 < t) {s s' : List Item} (hb : Bottom s) (h : Gone t s ∨ Meek t s)
    (ha : a = 0 ∨ t ≤ a) (hr : stackWrite a s = some s') : Bottom s' ∧ Gone t s' := by
  unfold stackWrite at hr
  cases hc : cut (Item.writes a) s with
  | none => rw [hc] at hr; cases hr
  | some q =>
    rw [hc] at hr
    cases hr
    obtain ⟨e, hp⟩ := cut_parts hc
    simp only [Item.writes, Bool.and_eq_true, decide_eq_true_eq] at hp
    have hb' := hb
    rw [e] at hb'
    obtain ⟨h1, h2⟩ := hb'.rest
    rcases ha with rfl | ha
    · obtain ⟨e1, e2⟩ := h1.owner hp.1
      have : peers q.2.1 q.1 = [] := by
        unfold peers
        rw [e1]
        simp
      show Bottom (peers q.2.1 q.1 ++ q.2.1 :: q.2.2) ∧ Gone t (peers q.2.1 q.1 ++ q.2.1 :: q.2.2)
      rw [this, e1, e2]
      exact ⟨rfl, fun i hi => by rw [List.mem_singleton.mp hi]; exact .inl rfl⟩
    · have hg := gone_of h ha hc
      refine ⟨h1.pushes fun i hi => h2 i (peers_mem hi), fun i hi => hg i ?_⟩
      rw [e]
      rcases List.mem_append.mp hi with hi | hi
      · exact List.mem_append_left _ (peers_mem hi)
      · exact List.mem_append_right _ hi

theorem stack_act {t l : Nat} (h0 : 0 < t) {e : Event} {s s' : List Item} (hb : Bottom s) (h : Gone t s ∨ Meek t s)
    (he : e.region.has l = true → Inner t e) (ha : e.act Stacked l s = some s') :
    Bottom s' ∧ (Gone t s' ∨ Meek t s') ∧ (Gone t s → Gone t s') ∧
      (∀ a r, e = .write a r → r.has l = true → Gone t s') := by
  by_cases hl : e.region.has l = true
  · have he := he hl
    cases e with
    | read a r =>
      have hl : r.has l = true := hl
      rw [hit_read hl] at ha
      obtain ⟨h1, h2, h3⟩ := stack_read_keeps (t := t) hb ha
      exact ⟨h1, h.imp h2 h3, h2, fun _ _ e => nomatch e⟩
    | write a r =>
      have hl : r.has l = true := hl
      rw [hit_write hl] at ha
      obtain ⟨h1, h2⟩ := stack_write_ends h0 hb h (.inr he) ha
      exact ⟨h1, .inl h2, fun _ => h2, fun _ _ _ _ => h2⟩
    | retag k a b r =>
      have hl : r.has l = true := hl
      rw [hit_retag hl] at ha
      cases k with
      | excl =>
        have ha : (stackWrite a s).map (⟨b, .unique⟩ :: ·) = some s' := ha
        cases hw : stackWrite a s with
        | none => rw [hw] at ha; cases ha
        | some s1 =>
          rw [hw] at ha
          cases ha
          obtain ⟨h1, h2⟩ := stack_write_ends h0 hb h he.1 hw
          have hb2 : t ≤ b := he.2
          have : Gone t (⟨b, .unique⟩ :: s1) := fun i hi => by
            rcases List.mem_cons.mp hi with rfl | hi
            · exact .inr hb2
            · exact h2 i hi
          exact ⟨h1.push (show b ≠ 0 by omega), .inl this, fun _ => this, fun _ _ e => nomatch e⟩
      | shared =>
        have ha : (stackRead a s).map (⟨b, .sharedRO⟩ :: ·) = some s' := ha
        cases hw : stackRead a s with
        | none => rw [hw] at ha; cases ha
        | some s1 =>
          rw [hw] at ha
          cases ha
          obtain ⟨h1, h2, h3⟩ := stack_read_keeps (t := t) hb hw
          have hb2 : t ≤ b := he.2
          have hg : Gone t s → Gone t (⟨b, .sharedRO⟩ :: s1) := fun hg i hi => by
            rcases List.mem_cons.mp hi with rfl | hi
            · exact .inr hb2
            · exact h2 hg i hi
          refine ⟨h1.push (show b ≠ 0 by omega), h.imp hg fun hc i hi ht => ?_, hg, fun _ _ e => nomatch e⟩
          rcases List.mem_cons.mp hi with rfl | hi
          · exact ⟨(fun h => nomatch h), fun h => nomatch h⟩
          · exact h3 hc i hi ht
      | raw =>
        have ha : (cut (Item.writes a) s).map _ = some s' := ha
        cases hc : cut (Item.writes a) s with
        | none => rw [hc] at ha; cases ha
        | some q =>
          rw [hc] at ha
          cases ha
          obtain ⟨e, hp⟩ := cut_parts hc
          have hg := gone_of h he.1 hc
          have hb2 : t ≤ b := he.2
          have hb' := hb
          rw [e] at hb' hg
          obtain ⟨h1, h2⟩ := hb'.rest
          have : Gone t (q.1.take (q.1.length - (peers q.2.1 q.1).length) ++ ⟨b, .sharedRW⟩ :: (peers q.2.1 q.1 ++
              q.2.1 :: q.2.2)) := by
            intro i hi
            rcases List.mem_append.mp hi with hi | hi
            · exact hg i (List.mem_append_left _ (List.mem_of_mem_take hi))
            · rcases List.mem_cons.mp hi with rfl | hi
              · exact .inr hb2
              · rcases List.mem_append.mp hi with hi | hi
                · exact hg i (List.mem_append_left _ (peers_mem hi))
                · exact hg i (List.mem_append_right _ hi)
          refine ⟨?_, .inl this, fun _ => this, fun _ _ e => nomatch e⟩
          exact ((h1.pushes fun i hi => h2 i (peers_mem hi)).push (i := ⟨b, .sharedRW⟩) (show b ≠ 0 by omega)).pushes
            fun i hi => h2 i (List.mem_of_mem_take hi)
  · rw [act_miss hl] at ha
    cases ha
    exact ⟨hb, h, id, fun a r e hr => absurd (by rw [e]; exact hr) hl⟩

theorem stack_run {t l : Nat} (h0 : 0 < t) : (es : List Event) → {s s' : List Item} → Bottom s →
    (Gone t s ∨ Meek t s) → Inward t l es → runAt Stacked l es s = some s' →
    (Gone t s → Gone t s') ∧ (WrittenAt es l → Gone t s')
  | [], _, _, _, _, _, hr => by
    cases hr
    exact ⟨id, fun ⟨_, _, h, _⟩ => nomatch h⟩
  | e :: es, s, s', hb, h, hi, hr => by
    have hr : (e.act Stacked l s).bind (runAt Stacked l es) = some s' := hr
    cases ha : e.act Stacked l s with
    | none => rw [ha] at hr; cases hr
    | some s1 =>
      rw [ha] at hr
      obtain ⟨h1, h2, h3, h4⟩ := stack_act h0 hb h (hi e (.head _)) ha
      obtain ⟨h5, h6⟩ := stack_run h0 es h1 h2 (fun e he => hi e (.tail _ he)) hr
      refine ⟨fun hg => h5 (h3 hg), fun ⟨a, r, hm, hl⟩ => ?_⟩
      rcases List.mem_cons.mp hm with e1 | hm
      · exact h5 (h4 a r e1.symm hl)
      · exact h6 ⟨a, r, hm, hl⟩

theorem stack_written {t l g : Nat} {es : List Event} {s : List Item} (hw : stackW 0 t s) (hi : Inward t l es)
    (h : WrittenAt es l) (hg : g < t) (hg0 : g ≠ 0) (fs : List Event) :
    runAt Stacked l (es ++ .read g ⟨l, 1⟩ :: fs) s = none := by
  rw [runAt_append]
  cases hr : runAt Stacked l es s with
  | none => rfl
  | some s' =>
    have hgone := (stack_run hw.1 es (bottom_of hw) (.inr fun i hi ht => by
      obtain ⟨h1, A, rfl, hA⟩ := hw
      rcases List.mem_append.mp hi with hi | hi
      · have := (hA i hi).2
        omega
      · rw [List.mem_singleton.mp hi] at ht
        simp only at ht
        omega) hi hr).2 h
    have hl : (⟨l, 1⟩ : Region).has l = true := by rw [has_iff]; simp only; omega
    show (Event.act Stacked l (.read g ⟨l, 1⟩) s').bind _ = none
    rw [hit_read hl]
    show (stackRead g s').bind _ = none
    rw [stack_dead_read fun i hi => ?_]
    · rfl
    · have := hgone i hi
      omega

/-! Tree Borrows. -/

/-- What was made since `t` was made of that and the owner only. -/
def Kept (t : Nat) (s : List Node) : Prop := ∀ m ∈ s, (m.id = 0 ∧ m.names = [0] ∧ m.line = [0]) ∨
  (m.id ≠ 0 ∧ m.id < t ∧ ∀ x ∈ m.names, x ≠ 0 ∧ x < t) ∨
  (t ≤ m.id ∧ (∀ x ∈ m.names, t ≤ x) ∧ ∀ x ∈ m.line, x = 0 ∨ t ≤ x)

/-- What was made before is disabled. -/
def Over (t : Nat) (s : List Node) : Prop := ∀ m ∈ s, m.id ≠ 0 → m.id < t → m.state = .disabled

theorem kept_map {t : Nat} {s : List Node} {f : Node → Node} (hf : Steady f) (h : Kept t s) : Kept t (s.map f) := by
  intro m hm
  obtain ⟨m', hm', rfl⟩ := List.mem_map.mp hm
  rw [(hf m').1, (hf m').2.1, (hf m').2.2]
  exact h m' hm'

theorem kept_line {t a : Nat} (_ : 0 < t) {s : List Node} (h : Kept t s) (ha : a = 0 ∨ t ≤ a) {y : Node}
    (hy : find a s = some y) : ∀ x ∈ y.line, x = 0 ∨ t ≤ x := by
  obtain ⟨h1, h2⟩ := find_names hy
  rcases h y h1 with h | h | h
  · rw [h.2.2]
    exact fun x hx => .inl (List.mem_singleton.mp hx)
  · have := h.2.2 a h2
    omega
  · exact h.2.2

theorem over_read {t : Nat} {s : List Node} (line : List Nat) (h : Over t s) : Over t (s.map (readMap line)) := by
  intro m hm h1 h2
  obtain ⟨m', hm', rfl⟩ := List.mem_map.mp hm
  rw [(readMap_steady line m').1] at h1 h2
  unfold readMap
  split
  · exact h m' hm' h1 h2
  · show m'.state.foreignRead = _
    rw [h m' hm' h1 h2]
    rfl

theorem retag_ref {k : Kind} (hk : k ≠ .raw) {h n : Nat} {s s' : List Node} (hr : Tree.retag k h n s = some s') :
    ∃ y st, find h s = some y ∧ s' = ⟨n, [n], n :: y.line, st⟩ :: s.map (readMap y.line) := by
  have hr : treeRetag k h n s = some s' := hr
  cases hf : find h s with
  | none => cases k <;> simp [treeRetag, hf] at hr
  | some y =>
    have go : ∀ st, (treeRead h s).map ((⟨n, [n], n :: y.line, st⟩ : Node) :: ·) = some s' →
        ∃ y' st, some y = some y' ∧ s' = ⟨n, [n], n :: y'.line, st⟩ :: s.map (readMap y'.line) := by
      intro st hr
      cases hd : treeRead h s with
      | none => rw [hd] at hr; cases hr
      | some s1 =>
        rw [hd] at hr
        obtain ⟨y', e, rfl⟩ := read_maps hd
        rw [hf] at e
        cases e
        cases hr
        exact ⟨y, st, rfl, rfl⟩
    cases k with
    | raw => exact absurd rfl hk
    | excl =>
      simp only [treeRetag, hf] at hr
      exact go _ hr
    | shared =>
      simp only [treeRetag, hf] at hr
      exact go _ hr

theorem tree_act {t l : Nat} (h0 : 0 < t) {e : Event} {s s' : List Node} (hk : Kept t s)
    (he : e.region.has l = true → Inner t e) (ha : e.act Tree l s = some s') :
    Kept t s' ∧ (Over t s → Over t s') ∧ (∀ a r, e = .write a r → r.has l = true → Over t s') := by
  by_cases hl : e.region.has l = true
  · have he := he hl
    cases e with
    | read a r =>
      have hl : r.has l = true := hl
      rw [hit_read hl] at ha
      obtain ⟨y, _, rfl⟩ := read_maps ha
      exact ⟨kept_map (readMap_steady _) hk, over_read _, fun _ _ e => nomatch e⟩
    | write a r =>
      have hl : r.has l = true := hl
      rw [hit_write hl] at ha
      obtain ⟨y, hy, rfl⟩ := write_maps ha
      have hline := kept_line h0 hk (.inr he) hy
      have : Over t (s.map (writeMap y.line)) := by
        intro m hm h1 h2
        obtain ⟨m', hm', rfl⟩ := List.mem_map.mp hm
        have h1 : m'.id ≠ 0 := h1
        have h2 : m'.id < t := h2
        show (if m'.id ∈ y.line then State.active else State.disabled) = _
        rw [if_neg fun h => by
          have := hline _ h
          omega]
      exact ⟨kept_map (writeMap_steady _) hk, fun _ => this, fun _ _ _ _ => this⟩
    | retag k a b r =>
      have hl : r.has l = true := hl
      rw [hit_retag hl] at ha
      have new : ∀ (y : Node) (st : State), find a s = some y → (a = 0 ∨ t ≤ a) → t ≤ b →
          Kept t (⟨b, [b], b :: y.line, st⟩ :: s.map (readMap y.line)) ∧
          (Over t s → Over t (⟨b, [b], b :: y.line, st⟩ :: s.map (readMap y.line))) := by
        intro y st hy h1 h2
        refine ⟨fun m hm => ?_, fun ho m hm => ?_⟩
        · rcases List.mem_cons.mp hm with rfl | hm
          · refine .inr (.inr ⟨h2, fun x hx => by rw [List.mem_singleton.mp hx]; exact h2, fun x hx => ?_⟩)
            rcases List.mem_cons.mp hx with rfl | hx
            · exact .inr h2
            · exact kept_line h0 hk h1 hy x hx
          · exact kept_map (readMap_steady _) hk m hm
        · rcases List.mem_cons.mp hm with rfl | hm
          · exact fun _ h => absurd h (by simp only; omega)
          · exact over_read _ ho m hm
      have names : t ≤ a → t ≤ b → Kept t (s.map (nameMap a b)) ∧ (Over t s → Over t (s.map (nameMap a b))) := by
        intro h1 h2
        refine ⟨fun m hm => ?_, fun ho m hm h3 h4 => ?_⟩
        · obtain ⟨m', hm', rfl⟩ := List.mem_map.mp hm
          unfold nameMap
          split
          · rename_i hn
            rcases hk m' hm' with h | h | h
            · rw [h.2.1] at hn
              have := List.mem_singleton.mp hn
              omega
            · have := h.2.2 a hn
              omega
            · refine .inr (.inr ⟨h.1, fun x hx => ?_, h.2.2⟩)
              rcases List.mem_cons.mp hx with rfl | hx
              · exact h2
              · exact h.2.1 x hx
          · exact hk m' hm'
        · obtain ⟨m', hm', rfl⟩ := List.mem_map.mp hm
          unfold nameMap at *
          split at h3 <;> simp_all only [if_true, if_false]
          · exact ho m' hm' h3 h4
          · exact ho m' hm' h3 h4
      cases k with
      | excl =>
        obtain ⟨y, st, hy, rfl⟩ := retag_ref (by simp) ha
        exact ⟨(new y st hy he.1 he.2).1, (new y st hy he.1 he.2).2, fun _ _ e => nomatch e⟩
      | shared =>
        obtain ⟨y, st, hy, rfl⟩ := retag_ref (by simp) ha
        exact ⟨(new y st hy he.1 he.2).1, (new y st hy he.1 he.2).2, fun _ _ e => nomatch e⟩
      | raw =>
        rcases retag_node ha with ⟨y, st, hy, rfl⟩ | rfl
        · exact ⟨(new y st hy (.inr he.1) he.2).1, (new y st hy (.inr he.1) he.2).2, fun _ _ e => nomatch e⟩
        · exact ⟨(names he.1 he.2).1, (names he.1 he.2).2, fun _ _ e => nomatch e⟩
  · rw [act_miss hl] at ha
    cases ha
    exact ⟨hk, id, fun a r e hr => absurd (by rw [e]; exact hr) hl⟩

theorem tree_run {t l : Nat} (h0 : 0 < t) : (es : List Event) → {s s' : List Node} → Kept t s → Inward t l es →
    runAt Tree l es s = some s' → Kept t s' ∧ (Over t s → Over t s') ∧ (WrittenAt es l → Over t s')
  | [], _, _, hk, _, hr => by
    cases hr
    exact ⟨hk, id, fun ⟨_, _, h, _⟩ => nomatch h⟩
  | e :: es, s, s', hk, hi, hr => by
    have hr : (e.act Tree l s).bind (runAt Tree l es) = some s' := hr
    cases ha : e.act Tree l s with
    | none => rw [ha] at hr; cases hr
    | some s1 =>
      rw [ha] at hr
      obtain ⟨h1, h3, h4⟩ := tree_act h0 hk (hi e (.head _)) ha
      obtain ⟨h2, h5, h6⟩ := tree_run h0 es h1 (fun e he => hi e (.tail _ he)) hr
      refine ⟨h2, fun hg => h5 (h3 hg), fun ⟨a, r, hm, hl⟩ => ?_⟩
      rcases List.mem_cons.mp hm with e1 | hm
      · exact h5 (h4 a r e1.symm hl)
      · exact h6 ⟨a, r, hm, hl⟩

theorem tree_written {t l g : Nat} {es : List Event} {s : List Node} (hw : treeW 0 t s) (hR : Rooted s)
    (hi : Inward t l es) (h : WrittenAt es l) (hg : g < t) (hg0 : g ≠ 0) (fs : List Event) :
    runAt Tree l (es ++ .read g ⟨l, 1⟩ :: fs) s = none := by
  rw [runAt_append]
  cases hr : runAt Tree l es s with
  | none => rfl
  | some s' =>
    have hk : Kept t s := by
      obtain ⟨h1, A, rfl, hA⟩ := hw
      intro m hm
      rcases List.mem_append.mp hm with hm | hm
      · obtain ⟨b1, b2, b3, b4, b5, b6⟩ := hA m hm
        exact .inr (.inl ⟨b1, b4, fun x hx => ⟨fun e => b2 (e ▸ hx), b5 x hx⟩⟩)
      · rw [List.mem_singleton.mp hm]
        exact .inl ⟨rfl, rfl, rfl⟩
    obtain ⟨hk', _, ho⟩ := tree_run hw.1 es hk hi hr
    have hl : (⟨l, 1⟩ : Region).has l = true := by rw [has_iff]; simp only; omega
    show (Event.act Tree l (.read g ⟨l, 1⟩) s').bind _ = none
    rw [hit_read hl]
    show (treeRead g s').bind _ = none
    rw [tree_disabled (hR.run _ hr) fun y hy => ?_]
    · rfl
    · obtain ⟨m1, m2⟩ := find_names hy
      rcases hk' y m1 with h' | h' | h'
      · rw [h'.2.1] at m2
        exact absurd (List.mem_singleton.mp m2) hg0
      · rw [ho h y m1 h'.1 h'.2.1]
        rfl
      · have := h'.2.1 g m2
        omega

end Oct.Alias
