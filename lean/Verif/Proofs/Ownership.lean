import Verif.Spec.Ownership
import Verif.Proofs.SizedIter
/- Lemmas for `Props/Ownership.lean`. -/
namespace Oct
open Spec

theorem filterMap_id_map_some {α : Type} (l : List α) : (l.map some).filterMap id = l := by
  induction l with
  | nil => rfl
  | cons a l ih => simp

theorem filterMap_id_uninit {α : Type} (n : Nat) :
    (SizedSlice.uninit n : List (MaybeUninit α)).filterMap id = [] := by
  simp [SizedSlice.uninit]

theorem filterMap_zipWrite_uninit {α : Type} : ∀ (n : Nat) (l : List α), l.length ≤ n →
    (SizedSlice.zipWrite (SizedSlice.uninit n) l).filterMap id = l
  | 0, [], _ => rfl
  | 0, _ :: _, h => absurd h (by simp)
  | n + 1, [], _ => filterMap_id_uninit (n + 1)
  | n + 1, a :: l, h => by
    have ih := filterMap_zipWrite_uninit n l (by simpa using h)
    rw [SizedSlice.uninit, List.replicate_succ, SizedSlice.zipWrite, List.filterMap_cons]
    simp only [id]
    rw [← SizedSlice.uninit, ih]

theorem fillFrom_uninit {α : Type} : ∀ (n : Nat) (l : List α),
    (SizedSlice.fillFrom (SizedSlice.uninit n) l).1.filterMap id = l.take n
  | 0, l => by simp [SizedSlice.uninit, SizedSlice.fillFrom]
  | n + 1, [] => by
    rw [SizedSlice.uninit, List.replicate_succ, SizedSlice.fillFrom, ← List.replicate_succ,
      ← SizedSlice.uninit, filterMap_id_uninit]
    · rfl
    · simp
  | n + 1, a :: l => by
    have ih := fillFrom_uninit n l
    rw [SizedSlice.uninit, List.replicate_succ, SizedSlice.fillFrom, ← SizedSlice.uninit]
    simp only [List.filterMap_cons, id]
    rw [ih]; rfl

/-- Moving an item out of its cell takes it out of what the cells own. -/
theorem perm_filterMap_set {α : Type} : ∀ (cells : List (MaybeUninit α)) (i : Nat) (a : α),
    cells[i]? = some (some a) →
    (a :: (cells.set i none).filterMap id).Perm (cells.filterMap id)
  | [], i, a, h => by simp at h
  | c :: cells, 0, a, h => by
    simp only [List.getElem?_cons_zero, Option.some.injEq] at h
    subst h
    simp
  | c :: cells, i + 1, a, h => by
    have ih := perm_filterMap_set cells i a (by simpa using h)
    rw [List.set_cons_succ]
    cases c with
    | none => simpa using ih
    | some b =>
      simp only [List.filterMap_cons, id]
      exact (List.Perm.swap b a _).trans (ih.cons b)

/-- The containers look only at cells that are initialised. -/
def Holder.Ok : Holder → Prop
  | .item _ => True
  | .vec _ => True
  | .slice s => ∃ l, (s.asSlice : Res Empty (List Nat)) = .ok l
  | .iter it => ∃ l, it.Represents l

/-- The items an operation on one thing leaves without owner. -/
def OwnOp.lost : OwnOp → Holder → List Nat
  | .drop, .slice s => s.buf.filterMap id
  | .drop, .iter it => it.buf.filterMap id
  | .intoVec, .slice s => (s.buf.drop s.len).filterMap id
  | _, _ => []

def OwnOp.Careful : OwnOp → Prop
  | .fromArray => False
  | .nth _ => False
  | _ => True

/-- What a careful operation does: what it had and what is new goes to what is held, dropped or
lost. -/
structure OwnOp.Fine (o : OwnOp) (x : Holder) (fresh : Nat) (e : Effect) : Prop where
  ok : ∀ y ∈ e.held, y.Ok
  le : fresh ≤ e.fresh
  perm : (e.held.flatMap owned ++ (e.dropped ++ o.lost x)).Perm
    (owned x ++ List.range' fresh (e.fresh - fresh))
  used : ∀ a ∈ e.used, a ∈ owned x
  drops : ∀ a ∈ e.dropped, a ∈ owned x

theorem OwnOp.fine_same (o : OwnOp) (x : Holder) (fresh : Nat) (l : List Nat) (hx : x.Ok)
    (hl : o.lost x = []) (hu : ∀ a ∈ l, a ∈ owned x) :
    o.Fine x fresh { held := [x], used := l, fresh := fresh } where
  ok := by intro y hy; rw [List.mem_singleton.mp hy]; exact hx
  le := Nat.le_refl _
  perm := by simp [hl]
  used := hu
  drops := by simp

theorem owned_slice {s : SizedSlice Nat} {l : List Nat}
    (h : (s.asSlice : Res Empty (List Nat)) = .ok l) :
    owned (.slice s) = l ++ (s.buf.drop s.len).filterMap id := by
  rw [owned]
  conv => lhs; rw [SizedSlice.asSlice_buf h]
  rw [List.filterMap_append, filterMap_id_map_some]

theorem owned_iter {it : SizedIter Nat} {l : List Nat} (h : it.Represents l) :
    ∀ a ∈ l, a ∈ owned (.iter it) := by
  intro a ha
  obtain ⟨i, hi, rfl⟩ := List.mem_iff_getElem.mp ha
  have := h.get i hi
  rw [owned, List.mem_filterMap]
  exact ⟨some l[i], List.mem_of_getElem? this, rfl⟩

theorem cellsOf_asSlice (n : Nat) (l : List Nat) (h : l.length ≤ n) {ε : Type} :
    (SizedSlice.asSlice { buf := cellsOf n l, len := l.length } : Res ε (List Nat)) = .ok l := by
  rw [SizedSlice.asSlice_ok]
  have hu : (SizedSlice.uninit n : List (MaybeUninit Nat)).length = n := List.length_replicate
  constructor
  · rw [cellsOf, SizedSlice.zipWrite_length, hu]; exact h
  · exact SizedSlice.zipWrite_take _ _ (by rw [hu]; exact h)

theorem newItems_length (f k : Nat) : (newItems f k).length = k := List.length_range'

theorem OwnOp.apply_fine (o : OwnOp) (x : Holder) (fresh : Nat) (hc : o.Careful) (hx : x.Ok) :
    (∃ e, o.apply x fresh = .ok e ∧ o.Fine x fresh e) ∨
    (o = .intoVec ∧ (∃ s, x = .slice s ∧ s.len = 0) ∧ o.apply x fresh = .ub .zeroAlloc) := by
  have same : ∀ (l : List Nat), o.lost x = [] → (∀ a ∈ l, a ∈ owned x) →
      o.apply x fresh = .ok { held := [x], used := l, fresh := fresh } →
      (∃ e, o.apply x fresh = .ok e ∧ o.Fine x fresh e) :=
    fun l h1 h2 h3 => ⟨_, h3, OwnOp.fine_same o x fresh l hx h1 h2⟩
  cases o with
  | fromArray => exact hc.elim
  | nth k => exact hc.elim
  | collect n =>
    cases x with
    | item a => exact .inl (same [] rfl (by simp) rfl)
    | slice s => exact .inl (same [] rfl (by simp) rfl)
    | iter it => exact .inl (same [] rfl (by simp) rfl)
    | vec l =>
      refine .inl ⟨_, rfl, ?_, Nat.le_refl _, ?_, fun a h => h, fun a h => List.mem_of_mem_drop h⟩
      · intro y hy
        rw [List.mem_singleton.mp hy]
        refine ⟨l.take n, SizedSlice.asSlice_ok.mpr ?_⟩
        have hs := SizedSlice.fillFrom_spec (SizedSlice.uninit n) l
        rw [show (SizedSlice.uninit n : List (MaybeUninit Nat)).length = n from
          List.length_replicate] at hs
        refine ⟨?_, hs.2.2⟩
        show (SizedSlice.fillFrom (SizedSlice.uninit n) l).2
          ≤ (SizedSlice.fillFrom (SizedSlice.uninit n) l).1.length
        rw [hs.1, hs.2.1]; exact Nat.min_le_left _ _
      · have : owned (.slice (SizedSlice.fromIter n l)) = l.take n := fillFrom_uninit n l
        simp only [List.flatMap_cons, List.flatMap_nil, this, lost, List.append_nil]
        simp [owned]
  | new n =>
    cases x with
    | item a => exact .inl (same [] rfl (by simp) rfl)
    | slice s => exact .inl (same [] rfl (by simp) rfl)
    | iter it => exact .inl (same [] rfl (by simp) rfl)
    | vec l =>
      by_cases h : l.length > n
      · refine .inl (same [] rfl (by simp) ?_)
        unfold apply
        have : SizedSlice.new n (newItems fresh l.length)
            = .error { capacity := n, len := (newItems fresh l.length).length } := by
          unfold SizedSlice.new
          exact if_pos (by rw [newItems_length]; exact h)
        simp only [this]
      · have hn : SizedSlice.new n (newItems fresh l.length)
            = .ok (SizedSlice.mk (cellsOf n (newItems fresh l.length))
                (newItems fresh l.length).length) := by
          unfold SizedSlice.new
          exact if_neg (by rw [newItems_length]; exact h)
        refine .inl ⟨_, by unfold apply; simp only [hn]; rfl, ?_, by simp, ?_, fun a h => h, by simp⟩
        · intro y hy
          simp only [List.mem_cons, List.not_mem_nil, or_false] at hy
          rcases hy with rfl | rfl
          · exact ⟨_, cellsOf_asSlice n _ (by rw [newItems_length]; omega)⟩
          · trivial
        · have : owned (.slice (SizedSlice.mk (cellsOf n (newItems fresh l.length))
                (newItems fresh l.length).length)) = newItems fresh l.length :=
            filterMap_zipWrite_uninit n _ (by rw [newItems_length]; omega)
          simp only [List.flatMap_cons, List.flatMap_nil, this, lost, List.append_nil,
            Nat.add_sub_cancel_left]
          exact List.perm_append_comm
  | clone =>
    cases x with
    | item a => exact .inl (same [] rfl (by simp) rfl)
    | vec l => exact .inl (same [] rfl (by simp) rfl)
    | slice s =>
      obtain ⟨l, hl⟩ := hx
      have hlen := SizedSlice.asSlice_len hl
      have hb := (SizedSlice.asSlice_ok.mp hl).1
      refine .inl ⟨_, by unfold apply; simp only [hl, Res.cast]; rfl, ?_, by simp, ?_, ?_, by simp⟩
      · intro y hy
        simp only [List.mem_cons, List.not_mem_nil, or_false] at hy
        rcases hy with rfl | rfl
        · refine ⟨newItems fresh l.length, ?_⟩
          have := cellsOf_asSlice s.buf.length (newItems fresh l.length)
            (by rw [newItems_length]; omega) (ε := Empty)
          rw [newItems_length] at this
          rw [hlen]; exact this
        · exact ⟨l, hl⟩
      · have : owned (.slice (SizedSlice.mk (cellsOf s.buf.length (newItems fresh l.length)) s.len)) = newItems fresh l.length :=
            filterMap_zipWrite_uninit _ _ (by rw [newItems_length]; omega)
        simp only [List.flatMap_cons, List.flatMap_nil, this, lost, List.append_nil,
            Nat.add_sub_cancel_left]
        exact List.perm_append_comm
      · intro a ha
        rw [owned_slice hl]
        exact List.mem_append_left _ ha
    | iter it =>
      obtain ⟨l, hl⟩ := hx
      have hlen := hl.len
      have hb := hl.1
      refine .inl ⟨_, by unfold apply; simp only [hl.asSlice, Res.cast]; rfl, ?_, by simp, ?_,
        owned_iter hl, by simp⟩
      · intro y hy
        simp only [List.mem_cons, List.not_mem_nil, or_false] at hy
        rcases hy with rfl | rfl
        · refine ⟨newItems fresh l.length, ?_⟩
          have hu : (SizedSlice.uninit it.pos : List (MaybeUninit Nat)).length = it.pos :=
            List.length_replicate
          have hc := SizedSlice.asSlice_ok.mp (cellsOf_asSlice (it.buf.length - it.pos)
            (newItems fresh l.length) (by rw [newItems_length]; omega) (ε := Empty))
          simp only [newItems_length] at hc
          refine ⟨?_, ?_⟩
          · simp only [List.length_append, hu]
            have := hc.1
            omega
          · simp only
            rw [List.drop_left' hu, hlen]; exact hc.2
        · exact ⟨l, hl⟩
      · have : owned (.iter (SizedIter.mk (SizedSlice.uninit it.pos ++
            cellsOf (it.buf.length - it.pos) (newItems fresh l.length)) it.pos it.len)) = newItems fresh l.length := by
          rw [owned, List.filterMap_append, filterMap_id_uninit, List.nil_append]
          exact filterMap_zipWrite_uninit _ _ (by rw [newItems_length]; omega)
        simp only [List.flatMap_cons, List.flatMap_nil, this, lost, List.append_nil,
            Nat.add_sub_cancel_left]
        exact List.perm_append_comm
  | intoIter =>
    cases x with
    | item a => exact .inl (same [] rfl (by simp) rfl)
    | vec l => exact .inl (same [] rfl (by simp) rfl)
    | iter it => exact .inl (same [] rfl (by simp) rfl)
    | slice s =>
      obtain ⟨l, hl⟩ := hx
      refine .inl ⟨_, rfl, ?_, Nat.le_refl _, ?_, by simp, by simp⟩
      · intro y hy
        rw [List.mem_singleton.mp hy]
        exact ⟨l, SizedIter.represents_intoIter hl⟩
      · simp [lost, owned, SizedSlice.intoIter]
  | next =>
    cases x with
    | item a => exact .inl (same [] rfl (by simp) rfl)
    | vec l => exact .inl (same [] rfl (by simp) rfl)
    | slice s => exact .inl (same [] rfl (by simp) rfl)
    | iter it =>
      obtain ⟨l, hl⟩ := hx
      cases l with
      | nil =>
        refine .inl (same [] rfl (by simp) ?_)
        simp only [apply, hl.next_nil, Res.cast]
      | cons a l =>
        obtain ⟨h1, h2⟩ := hl.next_cons
        have hg := hl.get 0 (by simp)
        rw [Nat.add_zero] at hg
        refine .inl ⟨_, by simp only [apply, h1, Res.cast]; rfl, ?_, Nat.le_refl _, ?_, ?_, by simp⟩
        · intro y hy
          simp only [List.mem_cons, List.not_mem_nil, or_false] at hy
          rcases hy with rfl | rfl
          · trivial
          · exact ⟨l, h2⟩
        · simpa [lost, owned] using perm_filterMap_set it.buf it.pos a hg
        · intro b hb
          rw [List.mem_singleton.mp hb]
          exact owned_iter hl a (by simp)
  | nextBack =>
    cases x with
    | item a => exact .inl (same [] rfl (by simp) rfl)
    | vec l => exact .inl (same [] rfl (by simp) rfl)
    | slice s => exact .inl (same [] rfl (by simp) rfl)
    | iter it =>
      obtain ⟨l, hl⟩ := hx
      rcases List.eq_nil_or_concat l with rfl | ⟨l, a, rfl⟩
      · refine .inl (same [] rfl (by simp) ?_)
        simp only [apply, hl.nextBack_nil, Res.cast]
      · rw [List.concat_eq_append] at hl
        obtain ⟨h1, h2⟩ := hl.nextBack_concat
        have hlen := hl.len
        have hg := hl.get l.length (by simp)
        rw [List.length_append, List.length_singleton] at hlen
        have he : it.pos + it.len - 1 = it.pos + l.length := by omega
        refine .inl ⟨_, by simp only [apply, h1, Res.cast]; rfl, ?_, Nat.le_refl _, ?_, ?_, by simp⟩
        · intro y hy
          simp only [List.mem_cons, List.not_mem_nil, or_false] at hy
          rcases hy with rfl | rfl
          · trivial
          · exact ⟨l, h2⟩
        · rw [he]
          have := perm_filterMap_set it.buf (it.pos + l.length) a (by rw [hg]; simp)
          simpa [lost, owned] using this
        · intro b hb
          rw [List.mem_singleton.mp hb]
          exact owned_iter hl a (by simp)
  | intoVec =>
    cases x with
    | item a => exact .inl (same [] rfl (by simp) rfl)
    | vec l => exact .inl (same [] rfl (by simp) rfl)
    | iter it => exact .inl (same [] rfl (by simp) rfl)
    | slice s =>
      obtain ⟨l, hl⟩ := hx
      by_cases h0 : s.len = 0
      · refine .inr ⟨rfl, ⟨s, rfl, h0⟩, ?_⟩
        simp only [apply, SizedSlice.intoVec, SizedSlice.intoBoxedSlice]
        rw [if_pos (by rw [h0])]; rfl
      · have hv : (s.intoVec 1 : Res Empty (List Nat)) = .ok l := by
          unfold SizedSlice.intoVec SizedSlice.intoBoxedSlice
          rw [if_neg (by omega)]; exact hl
        refine .inl ⟨_, by simp only [apply, hv, Res.cast]; rfl, ?_, Nat.le_refl _, ?_, ?_, by simp⟩
        · intro y hy
          rw [List.mem_singleton.mp hy]; trivial
        · rw [owned_slice hl]
          simp [lost, owned]
        · intro a ha
          rw [owned_slice hl]
          exact List.mem_append_left _ ha
  | look =>
    cases x with
    | item a => exact .inl (same [a] rfl (by simp [owned]) rfl)
    | vec l => exact .inl (same l rfl (by simp [owned]) rfl)
    | slice s =>
      have hx' := hx
      obtain ⟨l, hl⟩ := hx
      refine .inl ⟨_, by simp only [apply, hl, Res.cast], OwnOp.fine_same _ _ _ l hx' rfl ?_⟩
      intro a ha
      rw [owned_slice hl]
      exact List.mem_append_left _ ha
    | iter it =>
      have hx' := hx
      obtain ⟨l, hl⟩ := hx
      exact .inl ⟨_, by simp only [apply, hl.asSlice, Res.cast],
        OwnOp.fine_same _ _ _ l hx' rfl (owned_iter hl)⟩
  | drop =>
    cases x with
    | item a =>
      exact .inl ⟨_, rfl, by simp, Nat.le_refl _, by simp [lost, owned], by simp [owned],
        by simp [owned]⟩
    | vec l =>
      exact .inl ⟨_, rfl, by simp, Nat.le_refl _, by simp [lost, owned], by simp [owned],
        by simp [owned]⟩
    | slice s =>
      exact .inl ⟨_, rfl, by simp, Nat.le_refl _, by simp [lost, owned], by simp, by simp⟩
    | iter it =>
      exact .inl ⟨_, rfl, by simp, Nat.le_refl _, by simp [lost, owned], by simp, by simp⟩

/-- What was created is owned, dropped or leaked. -/
structure World.Accounted (w : World) (leaked : List Nat) : Prop where
  ok : ∀ y ∈ w.held, y.Ok
  perm : (World.owned w ++ (w.dropped ++ leaked)).Perm (List.range w.fresh)

theorem World.Accounted.nodup {w : World} {leaked : List Nat} (h : w.Accounted leaked) :
    (World.owned w ++ (w.dropped ++ leaked)).Nodup :=
  h.perm.nodup_iff.mpr List.nodup_range

theorem World.Accounted.sound {w : World} {leaked : List Nat} (h : w.Accounted leaked) :
    Spec.Sound w := by
  have := h.nodup
  rw [← List.append_assoc] at this
  exact (List.nodup_append.mp this).1

theorem lostBy_op (w : World) (h : Nat) (o : OwnOp) (x : Holder) (hx : w.held[h]? = some x) :
    lostBy w (.op h o) = o.lost x := by
  cases o <;> simp only [lostBy, hx] <;> cases x <;> rfl

theorem eraseIdx_perm {α : Type} : ∀ (l : List α) (i : Nat) (a : α), l[i]? = some a →
    l.Perm (a :: l.eraseIdx i)
  | [], i, a, h => by simp at h
  | b :: l, 0, a, h => by
    simp only [List.getElem?_cons_zero, Option.some.injEq] at h
    subst h; simp
  | b :: l, i + 1, a, h => by
    have ih := eraseIdx_perm l i a (by simpa using h)
    rw [List.eraseIdx_cons_succ]
    exact (ih.cons b).trans (List.Perm.swap a b _)

theorem range_add_perm (f k : Nat) : List.range (f + k) = List.range f ++ List.range' f k := by
  rw [List.range_eq_range', List.range_eq_range', ← List.range'_append_1 (s := 0), Nat.zero_add]

theorem World.step_accounted (w : World) (s : OwnStep) (leaked : List Nat) (hw : w.Accounted leaked)
    (hc : Spec.Careful s) :
    (∃ w', w.step s = .ok w' ∧ w'.Accounted (leaked ++ lostBy w s)) ∨
    w.step s = .ub .zeroAlloc := by
  cases s with
  | make k =>
    refine .inl ⟨_, rfl, ?_, ?_⟩
    · intro y hy
      rcases List.mem_cons.mp hy with rfl | hy
      · trivial
      · exact hw.ok y hy
    · simp only [lostBy, List.append_nil]
      rw [range_add_perm]
      have h1 := hw.perm.append_right (List.range' w.fresh k)
      refine List.Perm.trans ?_ h1
      simp only [World.owned, List.flatMap_cons, Spec.owned, newItems, List.append_assoc]
      rw [List.perm_iff_count]
      intro a
      simp only [List.count_append]
      omega
  | decode n len =>
    by_cases hn : len > n
    · refine .inl ⟨w, by unfold World.step; exact if_pos hn, ?_⟩
      simpa [lostBy] using hw
    · refine .inl ⟨_, by unfold World.step; exact if_neg hn, ?_, ?_⟩
      · intro y hy
        rcases List.mem_cons.mp hy with rfl | hy
        · refine ⟨(newItems w.fresh n).take len, SizedSlice.asSlice_ok.mpr ⟨?_, ?_⟩⟩
          · simp only [List.length_map, newItems_length]; omega
          · simp only [List.map_take]
        · exact hw.ok y hy
      · simp only [lostBy, List.append_nil]
        rw [range_add_perm]
        have h1 := hw.perm.append_right (List.range' w.fresh n)
        refine List.Perm.trans ?_ h1
        simp only [World.owned, List.flatMap_cons, Spec.owned, newItems, List.append_assoc,
          filterMap_id_map_some]
        rw [List.perm_iff_count]
        intro a
        simp only [List.count_append]
        omega
  | decodeFail k =>
    refine .inl ⟨_, rfl, hw.ok, ?_⟩
    simp only [lostBy]
    rw [range_add_perm]
    have h1 := hw.perm.append_right (List.range' w.fresh k)
    simpa [World.owned, List.append_assoc] using h1
  | op h o =>
    cases hg : w.held[h]? with
    | none =>
      refine .inl ⟨w, by simp only [World.step, hg], ?_⟩
      have : lostBy w (.op h o) = [] := by cases o <;> simp only [lostBy, hg]
      rw [this, List.append_nil]; exact hw
    | some x =>
      have hxm : x ∈ w.held := List.mem_of_getElem? hg
      have hcc : o.Careful := by cases o <;> first | exact hc | trivial
      rcases o.apply_fine x w.fresh hcc (hw.ok x hxm) with ⟨e, he, hf⟩ | ⟨_, _, he⟩
      · have hown : ∀ a ∈ owned x, a ∉ w.dropped := by
          intro a ha hd
          have hn := hw.sound
          unfold Spec.Sound at hn
          have := (List.nodup_append.mp hn).2.2 a
            (List.mem_flatMap.mpr ⟨x, hxm, ha⟩) a hd
          exact this rfl
        have hno : (e.used ++ e.dropped).any (· ∈ w.dropped) = false := by
          rw [List.any_eq_false]
          intro a ha
          rw [List.mem_append] at ha
          have : a ∈ owned x := ha.elim (hf.used a) (hf.drops a)
          simpa using hown a this
        refine .inl ⟨World.mk (e.held ++ w.held.eraseIdx h) (w.dropped ++ e.dropped) e.fresh,
          ?_, ?_, ?_⟩
        · simp only [World.step, hg, he, Res.cast, hno]; rfl
        · intro y hy
          rcases List.mem_append.mp hy with hy | hy
          · exact hf.ok y hy
          · exact hw.ok y (List.mem_of_mem_eraseIdx hy)
        · rw [lostBy_op w h o x hg]
          simp only [World.owned, List.flatMap_append, List.append_assoc]
          have hp := hf.perm
          have hfr : e.fresh = w.fresh + (e.fresh - w.fresh) := by have := hf.le; omega
          rw [hfr, range_add_perm]
          have h1 := hw.perm.append_right (List.range' w.fresh (e.fresh - w.fresh))
          refine List.Perm.trans ?_ h1
          have h2 : (w.held.flatMap owned).Perm (owned x ++ (w.held.eraseIdx h).flatMap owned) := by
            have := (eraseIdx_perm w.held h x hg).flatMap_right owned
            rwa [List.flatMap_cons] at this
          simp only [World.owned]
          refine List.Perm.trans ?_ ((h2.append_right _).append_right _).symm
          rw [List.perm_iff_count] at hp ⊢
          intro a
          have := hp a
          simp only [List.count_append] at this ⊢
          omega
      · exact .inr (by simp only [World.step, hg, he, Res.cast])

theorem World.run_accounted : ∀ (ss : List OwnStep) (w : World) (leaked : List Nat),
    w.Accounted leaked → (∀ s ∈ ss, Spec.Careful s) →
    (∃ w', w.run ss = .ok w' ∧ w'.Accounted (leaked ++ leaks w ss)) ∨ w.run ss = .ub .zeroAlloc
  | [], w, leaked, hw, _ => .inl ⟨w, rfl, by simpa [leaks] using hw⟩
  | s :: ss, w, leaked, hw, hc => by
    rcases w.step_accounted s leaked hw (hc s (by simp)) with ⟨w', h1, h2⟩ | h1
    · have ih := World.run_accounted ss w' _ h2 (fun t ht => hc t (by simp [ht]))
      simp only [World.run, h1, Res.cast, leaks, ← List.append_assoc]
      exact ih
    · exact .inr (by simp only [World.run, h1, Res.cast])

/-- Reading an iterator to its end, dropping each item. -/
theorem World.drain : ∀ (l : List Nat) (it : SizedIter Nat) (d : List Nat) (f : Nat) (hs : List Holder),
    it.Represents l → (l ++ d).Nodup →
    ∃ it' : SizedIter Nat, it'.Represents [] ∧
      World.run { held := .iter it :: hs, dropped := d, fresh := f }
        (List.flatten (List.replicate l.length [.op 0 .next, .op 0 .drop]))
      = .ok { held := .iter it' :: hs, dropped := d ++ l, fresh := f }
  | [], it, d, f, hs, h, _ => ⟨it, h, by simp [World.run]⟩
  | a :: l, it, d, f, hs, h, hn => by
    obtain ⟨h1, h2⟩ := h.next_cons
    have ha : a ∉ d := by
      intro hd
      have := (List.nodup_append.mp hn).2.2 a (by simp) a hd
      exact this rfl
    have hn' : (l ++ (d ++ [a])).Nodup := by
      have hp : (l ++ (d ++ [a])).Perm (a :: l ++ d) := by
        rw [List.perm_iff_count]
        intro b
        simp only [List.count_append, List.count_cons, List.count_nil, List.cons_append]
        omega
      exact hp.nodup_iff.mpr hn
    obtain ⟨it', h3, h4⟩ := World.drain l _ (d ++ [a]) f hs h2 hn'
    refine ⟨it', h3, ?_⟩
    rw [List.length_cons, List.replicate_succ, List.flatten_cons]
    simp only [List.cons_append, List.nil_append, World.run, World.step, List.getElem?_cons_zero,
      OwnOp.apply, h1, Res.cast, List.append_nil, List.any_cons, List.any_nil, ha, decide_false,
      Bool.or_false, List.eraseIdx_cons_zero, List.cons_append, List.nil_append, Bool.false_eq_true,
      if_false]
    rw [h4]
    simp

theorem World.run_append : ∀ (ss ts : List OwnStep) (w : World),
    w.run (ss ++ ts) = (w.run ss).cast fun w => w.run ts
  | [], _, _ => rfl
  | s :: ss, ts, w => by
    simp only [List.cons_append, World.run]
    cases w.step s with
    | ok w' => exact World.run_append ss ts w'
    | err e => exact e.elim
    | panic p => rfl
    | ub u => rfl

theorem World.empty_accounted : World.empty.Accounted [] where
  ok := by simp [World.empty]
  perm := by simp [World.empty, World.owned]

end Oct
