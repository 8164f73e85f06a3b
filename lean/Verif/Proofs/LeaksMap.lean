import Verif.Proofs.Leaks
import Verif.Proofs.TrackBalance
/- When decoding loses allocations: hash maps and hash sets. -/
namespace Oct
open Spec
set_option linter.unusedVariables false
variable {α β : Type}

/-- A key or a value of the entry with the index `i`. -/
abbrev atItem (i : Nat) (m : Track α) : Track α := m.mapErr (fun e => .badItem (.item i e))

/-- Inserting keeps what is in sized slices, or drops it. -/
theorem holdInsert_kept [DecidableEq α] (k : α) (hk hv : Holding) (l : List (α × β)) (h : Holdings) :
    Holdings.kept (holdInsert k hk hv l h).1 ≠ [] ∨ (holdInsert k hk hv l h).2.kept ≠ [] ↔
      Holdings.kept h ≠ [] ∨ hk.kept ≠ [] ∨ hv.kept ≠ [] := by
  have hc := fun a => (holdInsert_count k hk hv l h a).2
  generalize holdInsert k hk hv l h = r at hc ⊢
  have pos : ∀ l : List Nat, l ≠ [] ↔ ∃ a, 0 < l.count a := fun l => by
    cases l with
    | nil => simp
    | cons b l => simp only [ne_eq, reduceCtorEq, not_false_eq_true, true_iff]; exact ⟨b, by simp⟩
  simp only [pos]
  constructor
  · rintro (⟨a, ha⟩ | ⟨a, ha⟩)
    all_goals
      have := hc a
      by_cases h1 : 0 < (Holdings.kept h).count a
      · exact .inl ⟨a, h1⟩
      · by_cases h2 : 0 < hk.kept.count a
        · exact .inr (.inl ⟨a, h2⟩)
        · exact .inr (.inr ⟨a, by omega⟩)
  · rintro (⟨a, ha⟩ | ⟨a, ha⟩ | ⟨a, ha⟩)
    all_goals
      have := hc a
      by_cases h1 : 0 < (Holdings.kept r.1).count a
      · exact .inl ⟨a, h1⟩
      · exact .inr ⟨a, by omega⟩

section map
variable [DecidableEq α] {K : Track α} {V : Track β} {Dk Ok Sk Fk Lk Dv Ov Sv Fv Lv : Prop}
variable {c i : Nat} {m : MapVal α β} {h : Holdings} {I : Input} {n : Nat}

/-- A key that cannot be decoded. -/
theorem mapLoop_key (hx : (atItem i K I n).Bad) :
    (trackMapLoop K V (c + 1) i m h I n).Bad ∧ (trackMapLoop K V (c + 1) i m h I n).lost
      = (atItem i K I n).lost ++ Holdings.kept h := by
  unfold trackMapLoop
  dsimp only [atItem] at hx ⊢
  generalize K.mapErr (fun e => .badItem (.item i e)) I n = x at hx ⊢
  cases hr : x.res with
  | ok a => exact absurd hr (hx a)
  | err e => dsimp only; exact ⟨fun a ha => (by cases ha), rfl⟩
  | panic e => dsimp only; exact ⟨fun a ha => (by cases ha), rfl⟩
  | ub e => dsimp only; exact ⟨fun a ha => (by cases ha), rfl⟩

/-- A value that cannot be decoded. -/
theorem mapLoop_value {k : α} (hx : (atItem i K I n).res = .ok k)
    (hy : (atItem i V (atItem i K I n).rest (atItem i K I n).next).Bad) :
    (trackMapLoop K V (c + 1) i m h I n).Bad ∧ (trackMapLoop K V (c + 1) i m h I n).lost
      = (atItem i V (atItem i K I n).rest (atItem i K I n).next).lost
        ++ ((atItem i K I n).lost ++ (atItem i K I n).kept ++ Holdings.kept h) := by
  unfold trackMapLoop
  dsimp only [atItem] at hx hy ⊢
  generalize K.mapErr (fun e => .badItem (.item i e)) I n = x at hx hy ⊢
  rw [hx]
  dsimp only
  generalize V.mapErr (fun e => .badItem (.item i e)) x.rest x.next = y at hy ⊢
  cases hr : y.res with
  | ok a => exact absurd hr (hy a)
  | err e => dsimp only; exact ⟨fun a ha => (by cases ha), rfl⟩
  | panic e => dsimp only; exact ⟨fun a ha => (by cases ha), rfl⟩
  | ub e => dsimp only; exact ⟨fun a ha => (by cases ha), rfl⟩

/-- An entry that can be decoded: what comes next is as if the entry was there before, and something
may be lost besides. -/
theorem mapLoop_entry {k : α} {v : β} (hx : (atItem i K I n).res = .ok k)
    (hy : (atItem i V (atItem i K I n).rest (atItem i K I n).next).res = .ok v) :
    ∃ (m' : MapVal α β) (r : Holdings × Holding),
      r = holdInsert k ⟨(atItem i K I n).owned, (atItem i K I n).kept⟩
        ⟨(atItem i V (atItem i K I n).rest (atItem i K I n).next).owned,
          (atItem i V (atItem i K I n).rest (atItem i K I n).next).kept⟩ m.val h ∧
      m' = ⟨mapInsert k v m.val, mapInsert_nodup k v m.val m.property⟩ ∧
      let y := atItem i V (atItem i K I n).rest (atItem i K I n).next
      let z := trackMapLoop K V c (i + 1) m' r.1 y.rest y.next
      let z' := trackMapLoop K V (c + 1) i m h I n
      z'.res = z.res ∧ z'.rest = z.rest ∧ z'.owned = z.owned ∧ z'.kept = z.kept ∧
        (z'.lost ≠ [] ↔ (atItem i K I n).lost ≠ [] ∨ y.lost ≠ [] ∨ r.2.kept ≠ [] ∨ z.lost ≠ []) := by
  refine ⟨_, _, rfl, rfl, ?_⟩
  dsimp only
  rw [trackMapLoop]
  dsimp only [atItem] at hx hy ⊢
  rw [hx]
  dsimp only
  rw [hy]
  dsimp only
  refine ⟨rfl, rfl, rfl, rfl, ?_⟩
  simp only [append_nonempty, or_assoc]

/-- What the loop of a map can do, at most. -/
theorem mapLoop_upper (hK : Acct K Dk Ok Sk Fk Lk) (hV : Acct V Dv Ov Sv Fv Lv) :
    ∀ (c i : Nat) (m : MapVal α β) (h : Holdings), Upper (trackMapLoop K V c i m h) (c = 0 ∨ Dk ∧ Dv)
      (c = 0 ∧ (Holdings.owned h ≠ [] ∨ Holdings.kept h ≠ []) ∨ Dk ∧ Dv)
      (Holdings.kept h ≠ [] ∨ (Sk ∧ Dv ∨ Dk ∧ Sv)) True
      (Lk ∨ Dk ∧ Lv ∨ Sk ∧ Fv ∨ (Holdings.kept h ≠ [] ∨ (Sk ∧ Dv ∨ Dk ∧ Sv)) ∧ (Fk ∨ Fv))
  | 0, i, m, h => ⟨fun I n a ha => ⟨.inl rfl, fun ho => .inl ⟨rfl, ho.elim .inl fun h' => .inr
      (h'.resolve_right fun h => h rfl)⟩, fun hs => .inl (hs.resolve_right fun h => h rfl)⟩,
      fun I n hb => absurd rfl (hb m)⟩
  | c + 1, i, m, h => by
    have hX := (hK.mapErr (fun e => .badItem (.item i e))).toUpper
    have hY := (hV.mapErr (fun e => .badItem (.item i e))).toUpper
    refine ⟨fun I n a ha => ?_, fun I n hb => ⟨trivial, fun hl => ?_⟩⟩
    · rcases (atItem i K I n).ok_or_bad with ⟨k, hx⟩ | hx
      · rcases (atItem i V (atItem i K I n).rest (atItem i K I n).next).ok_or_bad with ⟨v, hy⟩ | hy
        · obtain ⟨x1, -, x3⟩ := hX.ok _ _ _ hx
          obtain ⟨y1, -, y3⟩ := hY.ok _ _ _ hy
          obtain ⟨m', r, hr, -, e1, -, -, e4, e5⟩ := mapLoop_entry (c := c) (m := m) (h := h) hx hy
          refine ⟨.inr ⟨x1, y1⟩, fun _ => .inr ⟨x1, y1⟩, fun hs => ?_⟩
          have hk : Holdings.kept r.1 ≠ [] ∨ r.2.kept ≠ [] → _ := fun h' =>
            (holdInsert_kept k _ _ m.val h).mp (hr ▸ h')
          have hin := fun h' => (hk h').elim (Or.inl (b := Sk ∧ Dv ∨ Dk ∧ Sv)) fun h' => .inr (h'.elim
            (fun h' => .inl ⟨x3 (.inl h'), y1⟩) fun h' => .inr ⟨x1, y3 (.inl h')⟩)
          obtain ⟨-, -, z3⟩ := (mapLoop_upper hK hV c (i + 1) m' r.1).ok _ _ a (e1.symm.trans ha)
          unfold Tracked.Spills at hs z3
          rw [e4, e5] at hs
          rcases hs with hs | hs | hs | hs | hs
          · exact (z3 (.inl hs)).elim (fun h => hin (.inl h)) .inr
          · exact .inr (.inl ⟨x3 (.inr hs), y1⟩)
          · exact .inr (.inr ⟨x1, y3 (.inr hs)⟩)
          · exact hin (.inr hs)
          · exact (z3 (.inr hs)).elim (fun h => hin (.inl h)) .inr
        · exact absurd ha ((mapLoop_value hx hy).1 a)
      · exact absurd ha ((mapLoop_key hx).1 a)
    · rcases (atItem i K I n).ok_or_bad with ⟨k, hx⟩ | hx
      · obtain ⟨x1, -, x3⟩ := hX.ok _ _ _ hx
        rcases (atItem i V (atItem i K I n).rest (atItem i K I n).next).ok_or_bad with ⟨v, hy⟩ | hy
        · obtain ⟨y1, -, y3⟩ := hY.ok _ _ _ hy
          obtain ⟨m', r, hr, -, e1, -, -, e4, e5⟩ := mapLoop_entry (c := c) (m := m) (h := h) hx hy
          have hk : Holdings.kept r.1 ≠ [] ∨ r.2.kept ≠ [] → _ := fun h' =>
            (holdInsert_kept k _ _ m.val h).mp (hr ▸ h')
          have hin := fun h' => (hk h').elim (Or.inl (b := Sk ∧ Dv ∨ Dk ∧ Sv)) fun h' => .inr (h'.elim
            (fun h' => .inl ⟨x3 (.inl h'), y1⟩) fun h' => .inr ⟨x1, y3 (.inl h')⟩)
          have hzb : (trackMapLoop K V c (i + 1) m' r.1 _ _).Bad := fun a h' => hb a (e1.trans h')
          obtain ⟨-, z2⟩ := (mapLoop_upper hK hV c (i + 1) m' r.1).bad _ _ hzb
          have hff := mapLoop_fails hK hV c (i + 1) m' r.1 _ _ hzb
          rcases e5.mp hl with hs | hs | hs | hs
          · exact .inr (.inr (.inr ⟨.inr (.inl ⟨x3 (.inr hs), y1⟩), hff⟩))
          · exact .inr (.inr (.inr ⟨.inr (.inr ⟨x1, y3 (.inr hs)⟩), hff⟩))
          · exact .inr (.inr (.inr ⟨hin (.inr hs), hff⟩))
          · rcases z2 hs with h' | h' | h' | ⟨h', -⟩
            · exact .inl h'
            · exact .inr (.inl h')
            · exact .inr (.inr (.inl h'))
            · exact .inr (.inr (.inr ⟨h'.elim (fun h' => hin (.inl h')) .inr, hff⟩))
        · obtain ⟨y1, y2⟩ := hY.bad _ _ hy
          rw [(mapLoop_value hx hy).2] at hl
          simp only [append_nonempty] at hl
          rcases hl with hl | (hl | hl) | hl
          · exact .inr (.inl ⟨x1, y2 hl⟩)
          · exact .inr (.inr (.inl ⟨x3 (.inr hl), y1⟩))
          · exact .inr (.inr (.inl ⟨x3 (.inl hl), y1⟩))
          · exact .inr (.inr (.inr ⟨.inl hl, .inr y1⟩))
      · obtain ⟨x1, x2⟩ := hX.bad _ _ hx
        rw [(mapLoop_key hx).2] at hl
        rcases append_nonempty.mp hl with hl | hl
        · exact .inl (x2 hl)
        · exact .inr (.inr (.inr ⟨.inl hl, .inl x1⟩))
where
  mapLoop_fails (hK : Acct K Dk Ok Sk Fk Lk) (hV : Acct V Dv Ov Sv Fv Lv) :
    ∀ (c i : Nat) (m : MapVal α β) (h : Holdings) (I : Input) (n : Nat),
      (trackMapLoop K V c i m h I n).Bad → Fk ∨ Fv
  | 0, i, m, h, I, n, hb => absurd rfl (hb m)
  | c + 1, i, m, h, I, n, hb => by
    have hX := (hK.mapErr (fun e => .badItem (.item i e))).toUpper
    have hY := (hV.mapErr (fun e => .badItem (.item i e))).toUpper
    rcases (atItem i K I n).ok_or_bad with ⟨k, hx⟩ | hx
    · rcases (atItem i V (atItem i K I n).rest (atItem i K I n).next).ok_or_bad with ⟨v, hy⟩ | hy
      · obtain ⟨m', r, hr, -, e1, -⟩ := mapLoop_entry (c := c) (m := m) (h := h) hx hy
        exact mapLoop_fails hK hV c (i + 1) m' r.1 _ _ fun a h' => hb a (e1.trans h')
      · exact .inr (hY.bad _ _ hy).1
    · exact .inl (hX.bad _ _ hx).1

/-- With nothing left to read, the next entry fails, and loses what the entries have in sized slices. -/
theorem mapLoop_end (hK : Acct K Dk Ok Sk Fk Lk) (hV : Acct V Dv Ov Sv Fv Lv) (hf : Fk ∨ Fv)
    (c i : Nat) (m : MapVal α β) (h : Holdings) (pre : List Byte) (n : Nat) :
    (trackMapLoop K V (c + 1) i m h ⟨pre, pre.length⟩ n).Bad ∧
      (Holdings.kept h ≠ [] → (trackMapLoop K V (c + 1) i m h ⟨pre, pre.length⟩ n).lost ≠ []) := by
  have hX := hK.mapErr (fun e => .badItem (.item i e))
  have hY := hV.mapErr (fun e => .badItem (.item i e))
  rcases (atItem i K ⟨pre, pre.length⟩ n).ok_or_bad with ⟨k, hx⟩ | hx
  · have hy : (atItem i V (atItem i K ⟨pre, pre.length⟩ n).rest (atItem i K ⟨pre, pre.length⟩ n).next).Bad := by
      rw [hX.stays _ _ _ hx]
      exact hY.f (hf.resolve_left fun hf => hX.f hf _ _ _ hx) _ _
    refine ⟨(mapLoop_value hx hy).1, fun hk => ?_⟩
    rw [(mapLoop_value hx hy).2]
    simp only [append_nonempty]
    exact .inr (.inr hk)
  · refine ⟨(mapLoop_key hx).1, fun hk => ?_⟩
    rw [(mapLoop_key hx).2]
    exact append_nonempty.mpr (.inr hk)

/-- An entry that is decoded anywhere, and what comes next. -/
theorem mapLoop_gives {w w' : List Byte} {k : α} {v : β} {P : Tracked α → Prop} {Q : Tracked β → Prop}
    (hK : Gives (atItem i K) w k P) (hV : Gives (atItem i V) w' v Q) (c : Nat) (pre rest : List Byte)
    (n : Nat) : ∃ (x : Tracked α) (y : Tracked β), P x ∧ Q y ∧
      let z := trackMapLoop K V c (i + 1) ⟨[(k, v)], by simp⟩ [(⟨x.owned, x.kept⟩, ⟨y.owned, y.kept⟩)]
        ⟨pre ++ (w ++ w' ++ rest), pre.length + (w ++ w').length⟩ y.next
      let z' := trackMapLoop K V (c + 1) i ⟨[], List.nodup_nil⟩ [] ⟨pre ++ (w ++ w' ++ rest), pre.length⟩ n
      z'.res = z.res ∧ z'.rest = z.rest ∧ z'.owned = z.owned ∧ z'.kept = z.kept ∧
        (z'.lost ≠ [] ↔ x.lost ≠ [] ∨ y.lost ≠ [] ∨ z.lost ≠ []) := by
  obtain ⟨h1, h2, h3⟩ := by
    have := hK pre (w' ++ rest) n
    rwa [← List.append_assoc w] at this
  have h4 := hV (pre ++ w) rest (atItem i K ⟨pre ++ (w ++ w' ++ rest), pre.length⟩ n).next
  rw [List.length_append, List.append_assoc pre, ← List.append_assoc w, ← h2] at h4
  obtain ⟨h4, h5, h6⟩ := h4
  refine ⟨_, _, h3, h6, ?_⟩
  obtain ⟨m', r, hr, hm, e1, e2, e3, e4, e5⟩ := mapLoop_entry (c := c) (m := ⟨[], List.nodup_nil⟩) (h := []) h1 h4
  have hr' : r = ([(⟨_, _⟩, ⟨_, _⟩)], ⟨[], []⟩) := hr
  have hm' : m' = ⟨[(k, v)], by simp⟩ := hm
  subst hr'
  subst hm'
  dsimp only at e1 e2 e3 e4 e5 ⊢
  rw [h5, Nat.add_assoc, ← List.length_append] at e1 e2 e3 e4 e5
  refine ⟨e1, e2, e3, e4, ?_⟩
  rw [e5]
  simp

namespace Acct

theorem hashMap (hK : Acct K Dk Ok Sk Fk Lk) (hV : Acct V Dv Ov Sv Fv Lv) :
    Acct (trackHashMap K V) True (Dk ∧ Dv) (Sk ∧ Dv ∨ Dk ∧ Sv) True
      (Lk ∨ Dk ∧ Lv ∨ Sk ∧ Fv ∨ (Sk ∧ Dv ∨ Dk ∧ Sv) ∧ (Fk ∨ Fv)) := by
  have hX := fun i => hK.mapErr (fun e => .badItem (.item i e))
  have hY := fun i => hV.mapErr (fun e => .badItem (.item i e))
  -- One entry.
  have one : ∀ {P : Tracked α → Prop} {Q : Tracked β → Prop} {w w' : List Byte} {k : α} {v : β},
      Gives (atItem 0 K) w k P → Gives (atItem 0 V) w' v Q →
      Gives (trackMapLoop K V 1 0 ⟨[], List.nodup_nil⟩ []) (w ++ w') ⟨[(k, v)], by simp⟩
        fun z => ∃ (x : Tracked α) (y : Tracked β), P x ∧ Q y ∧ (x.Spills ∨ y.Spills → z.Spills) := by
    intro P Q w w' k v hk hv pre rest n
    obtain ⟨x, y, hx, hy, e1, e2, e3, e4, e5⟩ := mapLoop_gives hk hv 0 pre rest n
    refine ⟨e1, e2, x, y, hx, hy, fun hs => ?_⟩
    unfold Tracked.Spills
    rw [e4, e5]
    rcases hs with (hs | hs) | (hs | hs)
    · exact .inl (by simp [trackMapLoop, Holdings.kept, hs])
    · exact .inr (.inl hs)
    · exact .inl (by simp [trackMapLoop, Holdings.kept, hs])
    · exact .inr (.inr (.inl hs))
  have some : Gives (trackBuffer 1) [] () Tracked.Owns := fun pre rest n =>
    ⟨rfl, rfl, .inl (by simp [trackBuffer, Track.alloc])⟩
  have ends : ∀ {len : Nat} {w : List Byte}, len ≠ 0 → (∀ pre n, (trackMapLoop K V len 0 ⟨[], List.nodup_nil⟩ []
      ⟨pre ++ w, pre.length⟩ n).Bad ∧ (trackMapLoop K V len 0 ⟨[], List.nodup_nil⟩ []
      ⟨pre ++ w, pre.length⟩ n).lost ≠ []) → ∃ w, ∀ pre n,
      (Track.bind (trackBuffer len) (fun _ => trackMapLoop K V len 0 ⟨[], List.nodup_nil⟩ [])
        ⟨pre ++ w, pre.length⟩ n).Bad ∧
      (Track.bind (trackBuffer len) (fun _ => trackMapLoop K V len 0 ⟨[], List.nodup_nil⟩ [])
        ⟨pre ++ w, pre.length⟩ n).lost ≠ [] := fun {len w} h0 h => by
    have hb : Gives (trackBuffer len) [] () fun _ => True := fun pre rest n => by
      unfold trackBuffer; rw [if_neg h0]; exact ⟨rfl, rfl, trivial⟩
    exact ⟨[] ++ w, hb.bind_bad (P' := fun y => y.lost ≠ []) (Q := fun y => y.lost ≠ []) h
      fun _ _ _ hy hl => (after_loses hy).mpr (.inl hl)⟩
  refine choose' (A := fun n => n ≤ 65535) (F := True) (fun I a ha => ?_) (fun n hn => ⟨_, decUsize_yields n hn⟩)
    decUsize_eats (fun n _ => ?_) (fun _ => ⟨0, by decide, [], ⟨[], List.nodup_nil⟩, fun pre rest n =>
      ⟨rfl, rfl, trivial⟩⟩) ?_ ?_ ?_
  · have := decUsize_ends hsOverflow (U := anyUb) I
    rw [ha] at this
    exact this
  · refine ((buffer n).toUpper.bindWith fun _ => mapLoop_upper hK hV n 0 _ []).mono (fun _ => trivial)
      ?_ ?_ (fun _ => trivial) ?_
    · rintro (⟨h0, h⟩ | ⟨-, ⟨-, h | h⟩ | h⟩)
      · exact h.resolve_left h0
      · exact absurd rfl h
      · exact absurd rfl h
      · exact h
    · rintro (⟨h, -⟩ | ⟨-, h | h⟩)
      · exact h.elim
      · exact absurd rfl h
      · exact h
    · rintro (h | ⟨-, h | h | h | ⟨h | h, h'⟩⟩ | ⟨h, -⟩)
      · exact h.elim
      · exact .inl h
      · exact .inr (.inl h)
      · exact .inr (.inr (.inl h))
      · exact absurd rfl h
      · exact .inr (.inr (.inr ⟨h, h'⟩))
      · exact h.elim (fun h => nomatch h.1) False.elim
  · rintro ⟨hd, hd'⟩
    obtain ⟨w, k, hk⟩ := (hX 0).d hd
    obtain ⟨w', v, hv⟩ := (hY 0).d hd'
    exact ⟨1, by decide, _, _, some.bind (one hk hv) fun _ _ hx hy _ => (after_owns hy).mpr (.inl hx)⟩
  · rintro (⟨hs, hd⟩ | ⟨hd, hs⟩)
    · obtain ⟨w, k, hk⟩ := (hX 0).s hs
      obtain ⟨w', v, hv⟩ := (hY 0).d hd
      exact ⟨1, by decide, _, _, some.bind (one hk hv) fun _ _ _ hy ⟨_, _, hx, _, h⟩ =>
        (after_spills hy).mpr (.inr (h (.inl hx)))⟩
    · obtain ⟨w, k, hk⟩ := (hX 0).d hd
      obtain ⟨w', v, hv⟩ := (hY 0).s hs
      exact ⟨1, by decide, _, _, some.bind (one hk hv) fun _ _ _ hy ⟨_, _, _, hx, h⟩ =>
        (after_spills hy).mpr (.inr (h (.inr hx)))⟩
  · rintro (hl | ⟨hd, hl⟩ | ⟨hs, hf⟩ | ⟨hs, hf⟩)
    · obtain ⟨w, hw⟩ := (hX 0).l hl
      refine ⟨1, by decide, ends (by decide) fun pre n => ⟨(mapLoop_key (hw pre n).1).1, ?_⟩⟩
      rw [(mapLoop_key (hw pre n).1).2]
      exact append_nonempty.mpr (.inl (hw pre n).2)
    · obtain ⟨w, k, hk⟩ := (hX 0).d hd
      obtain ⟨w', hw'⟩ := (hY 0).l hl
      refine ⟨1, by decide, ends (w := w ++ w') (by decide) fun pre n => ?_⟩
      obtain ⟨h1, h2, -⟩ := hk pre w' n
      have h3 := hw' (pre ++ w) (atItem 0 K ⟨pre ++ (w ++ w'), pre.length⟩ n).next
      rw [List.length_append, List.append_assoc, ← h2] at h3
      refine ⟨(mapLoop_value h1 h3.1).1, ?_⟩
      rw [(mapLoop_value h1 h3.1).2]
      exact append_nonempty.mpr (.inl h3.2)
    · obtain ⟨w, k, hk⟩ := (hX 0).s hs
      refine ⟨1, by decide, ends (w := w ++ []) (by decide) fun pre n => ?_⟩
      obtain ⟨h1, h2, h4⟩ := hk pre [] n
      have h3 := (hY 0).f hf (pre ++ (w ++ [])) (atItem 0 K ⟨pre ++ (w ++ []), pre.length⟩ n).next
      have hlen : (pre ++ (w ++ [])).length = pre.length + w.length := by simp
      rw [hlen, ← h2] at h3
      refine ⟨(mapLoop_value h1 h3).1, ?_⟩
      rw [(mapLoop_value h1 h3).2]
      simp only [append_nonempty]
      exact .inr (.inl h4.symm)
    · have : ∃ w w' k v P Q, Gives (atItem 0 K) w k P ∧ Gives (atItem 0 V) w' v Q ∧
          ∀ x y, P x → Q y → x.Spills ∨ y.Spills := by
        rcases hs with ⟨hs, hd⟩ | ⟨hd, hs⟩
        · obtain ⟨w, k, hk⟩ := (hX 0).s hs
          obtain ⟨w', v, hv⟩ := (hY 0).d hd
          exact ⟨w, w', k, v, _, _, hk, hv, fun _ _ h _ => .inl h⟩
        · obtain ⟨w, k, hk⟩ := (hX 0).d hd
          obtain ⟨w', v, hv⟩ := (hY 0).s hs
          exact ⟨w, w', k, v, _, _, hk, hv, fun _ _ _ h => .inr h⟩
      obtain ⟨w, w', k, v, P, Q, hk, hv, hpq⟩ := this
      refine ⟨2, by decide, ends (w := w ++ w' ++ []) (by decide) fun pre n => ?_⟩
      obtain ⟨x, y, hx, hy, e1, e2, e3, e4, e5⟩ := mapLoop_gives hk hv 1 pre [] n
      have h3 := mapLoop_end hK hV hf 0 1 ⟨[(k, v)], by simp⟩
        [(⟨x.owned, x.kept⟩, ⟨y.owned, y.kept⟩)] (pre ++ (w ++ w' ++ [])) y.next
      have hlen : (pre ++ (w ++ w' ++ [])).length = pre.length + (w ++ w').length := by simp
      rw [hlen] at h3
      refine ⟨fun a ha => h3.1 a (e1.symm.trans ha), e5.mpr ?_⟩
      rcases hpq x y hx hy with (h | h) | (h | h)
      · exact .inr (.inr (h3.2 (by simp [Holdings.kept, h])))
      · exact .inl h
      · exact .inr (.inr (h3.2 (by simp [Holdings.kept, h])))
      · exact .inr (.inl h)

end Acct

end map

section set
variable [DecidableEq α] {K : Track α} {D O S F L : Prop}
variable {c i : Nat} {s : SetVal α} {own kept : List Nat} {I : Input} {n : Nat}

/-- A key that cannot be decoded. -/
theorem setLoop_key (hx : (atItem i K I n).Bad) :
    (trackSetLoop K (c + 1) i s own kept I n).Bad ∧ (trackSetLoop K (c + 1) i s own kept I n).lost
      = (atItem i K I n).lost ++ kept := by
  unfold trackSetLoop
  dsimp only [atItem] at hx ⊢
  generalize K.mapErr (fun e => .badItem (.item i e)) I n = x at hx ⊢
  cases hr : x.res with
  | ok a => exact absurd hr (hx a)
  | err e => dsimp only; exact ⟨fun a ha => (by cases ha), rfl⟩
  | panic e => dsimp only; exact ⟨fun a ha => (by cases ha), rfl⟩
  | ub e => dsimp only; exact ⟨fun a ha => (by cases ha), rfl⟩

/-- A key that can be decoded: what it has in sized slices is kept or lost. -/
theorem setLoop_entry {k : α} (hx : (atItem i K I n).res = .ok k) :
    ∃ (s' : SetVal α) (own' kept' : List Nat),
      (kept' ≠ [] → kept ≠ [] ∨ (atItem i K I n).kept ≠ []) ∧
      (kept ≠ [] → kept' ≠ []) ∧ (k ∉ s.val → (atItem i K I n).kept ≠ [] → kept' ≠ []) ∧
      let z := trackSetLoop K c (i + 1) s' own' kept' (atItem i K I n).rest (atItem i K I n).next
      let z' := trackSetLoop K (c + 1) i s own kept I n
      z'.res = z.res ∧ z'.rest = z.rest ∧ z'.owned = z.owned ∧ z'.kept = z.kept ∧
        (z'.lost ≠ [] → (atItem i K I n).Spills ∨ z.lost ≠ []) ∧
        ((atItem i K I n).lost ≠ [] ∨ z.lost ≠ [] → z'.lost ≠ []) := by
  by_cases hk : k ∈ s.val
  · refine ⟨⟨setInsert k s.val, setInsert_nodup k s.val s.property⟩, own, kept, .inl, id, fun h => absurd hk h, ?_⟩
    dsimp only
    rw [trackSetLoop]
    dsimp only [atItem] at hx ⊢
    rw [hx]
    dsimp only
    rw [if_pos hk]
    refine ⟨rfl, rfl, rfl, rfl, ?_, ?_⟩
    · simp only [append_nonempty, Tracked.Spills]
      rintro ((h | h) | h)
      · exact .inl (.inr h)
      · exact .inl (.inl h)
      · exact .inr h
    · simp only [append_nonempty]
      rintro (h | h)
      · exact .inl (.inl h)
      · exact .inr h
  · refine ⟨⟨setInsert k s.val, setInsert_nodup k s.val s.property⟩, own ++ (atItem i K I n).owned, kept ++ (atItem i K I n).kept, append_nonempty.mp,
      fun h => append_nonempty.mpr (.inl h), fun _ h => append_nonempty.mpr (.inr h), ?_⟩
    dsimp only
    rw [trackSetLoop]
    dsimp only [atItem] at hx ⊢
    rw [hx]
    dsimp only
    rw [if_neg hk]
    refine ⟨rfl, rfl, rfl, rfl, ?_, ?_⟩
    · simp only [append_nonempty, Tracked.Spills]
      rintro (h | h)
      · exact .inl (.inr h)
      · exact .inr h
    · simp only [append_nonempty]
      exact id

theorem setLoop_fails (hK : Acct K D O S F L) :
    ∀ (c i : Nat) (s : SetVal α) (own kept : List Nat) (I : Input) (n : Nat),
      (trackSetLoop K c i s own kept I n).Bad → F
  | 0, i, s, own, kept, I, n, hb => absurd rfl (hb s)
  | c + 1, i, s, own, kept, I, n, hb => by
    have hX := (hK.mapErr (fun e => .badItem (.item i e))).toUpper
    rcases (atItem i K I n).ok_or_bad with ⟨k, hx⟩ | hx
    · obtain ⟨s', own', kept', -, -, -, e1, -⟩ := setLoop_entry (c := c) (s := s) (own := own) (kept := kept) hx
      exact setLoop_fails hK c (i + 1) s' own' kept' _ _ fun a h' => hb a (e1.trans h')
    · exact (hX.bad _ _ hx).1

/-- What the loop of a set can do, at most. -/
theorem setLoop_upper (hK : Acct K D O S F L) :
    ∀ (c i : Nat) (s : SetVal α) (own kept : List Nat), Upper (trackSetLoop K c i s own kept) (c = 0 ∨ D)
      (c = 0 ∧ (own ≠ [] ∨ kept ≠ []) ∨ D) (kept ≠ [] ∨ S) True (L ∨ (kept ≠ [] ∨ S) ∧ F)
  | 0, i, s, own, kept => ⟨fun I n a ha => ⟨.inl rfl, fun ho => .inl ⟨rfl, ho.elim .inl fun h' => .inr
      (h'.resolve_right fun h => h rfl)⟩, fun hs => .inl (hs.resolve_right fun h => h rfl)⟩,
      fun I n hb => absurd rfl (hb s)⟩
  | c + 1, i, s, own, kept => by
    have hX := (hK.mapErr (fun e => .badItem (.item i e))).toUpper
    refine ⟨fun I n a ha => ?_, fun I n hb => ⟨trivial, fun hl => ?_⟩⟩
    · rcases (atItem i K I n).ok_or_bad with ⟨k, hx⟩ | hx
      · obtain ⟨x1, -, x3⟩ := hX.ok _ _ _ hx
        obtain ⟨s', own', kept', k1, -, -, e1, -, -, e4, e5, -⟩ :=
          setLoop_entry (c := c) (s := s) (own := own) (kept := kept) hx
        obtain ⟨-, -, z3⟩ := (setLoop_upper hK c (i + 1) s' own' kept').ok _ _ a (e1.symm.trans ha)
        have z4 := fun h => (z3 h).elim (fun h => (k1 h).elim (Or.inl (b := S)) fun h => .inr (x3 (.inl h))) .inr
        refine ⟨.inr x1, fun _ => .inr x1, fun hs => ?_⟩
        rcases hs with hs | hs
        · exact z4 (.inl (e4 ▸ hs))
        · exact (e5 hs).elim (fun h => .inr (x3 h)) fun h => z4 (.inr h)
      · exact absurd ha ((setLoop_key hx).1 a)
    · rcases (atItem i K I n).ok_or_bad with ⟨k, hx⟩ | hx
      · obtain ⟨x1, -, x3⟩ := hX.ok _ _ _ hx
        obtain ⟨s', own', kept', k1, -, -, e1, -, -, e4, e5, -⟩ :=
          setLoop_entry (c := c) (s := s) (own := own) (kept := kept) hx
        have hzb : (trackSetLoop K c (i + 1) s' own' kept' _ _).Bad := fun a h' => hb a (e1.trans h')
        have hff := setLoop_fails hK c (i + 1) s' own' kept' _ _ hzb
        rcases e5 hl with h | h
        · exact .inr ⟨.inr (x3 h), hff⟩
        · rcases ((setLoop_upper hK c (i + 1) s' own' kept').bad _ _ hzb).2 h with h | ⟨h | h, -⟩
          · exact .inl h
          · exact .inr ⟨(k1 h).elim .inl fun h => .inr (x3 (.inl h)), hff⟩
          · exact .inr ⟨.inr h, hff⟩
      · obtain ⟨x1, x2⟩ := hX.bad _ _ hx
        rw [(setLoop_key hx).2] at hl
        exact (append_nonempty.mp hl).elim (fun h => .inl (x2 h)) fun h => .inr ⟨.inl h, x1⟩

namespace Acct

theorem hashSet (hK : Acct K D O S F L) : Acct (trackHashSet K) True D S True (L ∨ S ∧ F) := by
  have hX := fun i => hK.mapErr (fun e => .badItem (.item i e))
  have one : ∀ {P : Tracked α → Prop} {w : List Byte} {k : α}, Gives (atItem 0 K) w k P → ∃ s,
      Gives (trackSetLoop K 1 0 ⟨[], List.nodup_nil⟩ [] []) w s
        fun z => ∃ x : Tracked α, P x ∧ (x.Spills → z.Spills) := by
    intro P w k hk
    have key : ∀ pre rest n, ∃ s, (trackSetLoop K 1 0 ⟨[], List.nodup_nil⟩ [] []
        ⟨pre ++ (w ++ rest), pre.length⟩ n).res = .ok s ∧ s.val = [k] ∧
        (trackSetLoop K 1 0 ⟨[], List.nodup_nil⟩ [] [] ⟨pre ++ (w ++ rest), pre.length⟩ n).rest
          = ⟨pre ++ (w ++ rest), pre.length + w.length⟩ ∧
        ∃ x : Tracked α, P x ∧ (x.Spills →
          (trackSetLoop K 1 0 ⟨[], List.nodup_nil⟩ [] [] ⟨pre ++ (w ++ rest), pre.length⟩ n).Spills) := by
      intro pre rest n
      obtain ⟨h1, h2, h3⟩ := hk pre rest n
      rw [trackSetLoop]
      dsimp only [atItem] at h1 h2 h3 ⊢
      rw [h1]
      refine ⟨⟨[k], by simp⟩, ?_, rfl, ?_, _, h3, ?_⟩
      · simp [trackSetLoop, setInsert]
      · simp [trackSetLoop, setInsert, h2]
      · simp [trackSetLoop, setInsert, Tracked.Spills]
    refine ⟨⟨[k], by simp⟩, fun pre rest n => ?_⟩
    obtain ⟨s, h1, h2, h3, h4⟩ := key pre rest n
    exact ⟨h1.trans (congrArg _ (Subtype.ext h2)), h3, h4⟩
  have some : Gives (trackBuffer 1) [] () Tracked.Owns := fun pre rest n =>
    ⟨rfl, rfl, .inl (by simp [trackBuffer, Track.alloc])⟩
  have ends : ∀ {len : Nat} {w : List Byte}, len ≠ 0 → (∀ pre n, (trackSetLoop K len 0 ⟨[], List.nodup_nil⟩ [] []
      ⟨pre ++ w, pre.length⟩ n).Bad ∧ (trackSetLoop K len 0 ⟨[], List.nodup_nil⟩ [] []
      ⟨pre ++ w, pre.length⟩ n).lost ≠ []) → ∃ w, ∀ pre n,
      (Track.bind (trackBuffer len) (fun _ => trackSetLoop K len 0 ⟨[], List.nodup_nil⟩ [] [])
        ⟨pre ++ w, pre.length⟩ n).Bad ∧
      (Track.bind (trackBuffer len) (fun _ => trackSetLoop K len 0 ⟨[], List.nodup_nil⟩ [] [])
        ⟨pre ++ w, pre.length⟩ n).lost ≠ [] := fun {len w} h0 h => by
    have hb : Gives (trackBuffer len) [] () fun _ => True := fun pre rest n => by
      unfold trackBuffer; rw [if_neg h0]; exact ⟨rfl, rfl, trivial⟩
    exact ⟨[] ++ w, hb.bind_bad (P' := fun y => y.lost ≠ []) (Q := fun y => y.lost ≠ []) h
      fun _ _ _ hy hl => (after_loses hy).mpr (.inl hl)⟩
  refine choose' (A := fun n => n ≤ 65535) (F := True) (fun I a ha => ?_) (fun n hn => ⟨_, decUsize_yields n hn⟩)
    decUsize_eats (fun n _ => ?_) (fun _ => ⟨0, by decide, [], ⟨[], List.nodup_nil⟩, fun pre rest n =>
      ⟨rfl, rfl, trivial⟩⟩) ?_ ?_ ?_
  · have := decUsize_ends hsOverflow (U := anyUb) I
    rw [ha] at this
    exact this
  · refine ((buffer n).toUpper.bindWith fun _ => setLoop_upper hK n 0 _ [] []).mono (fun _ => trivial)
      ?_ ?_ (fun _ => trivial) ?_
    · rintro (⟨h0, h⟩ | ⟨-, ⟨-, h | h⟩ | h⟩)
      · exact h.resolve_left h0
      · exact absurd rfl h
      · exact absurd rfl h
      · exact h
    · rintro (⟨h, -⟩ | ⟨-, h | h⟩)
      · exact h.elim
      · exact absurd rfl h
      · exact h
    · rintro (h | ⟨-, h | ⟨h | h, h'⟩⟩ | ⟨h, -⟩)
      · exact h.elim
      · exact .inl h
      · exact absurd rfl h
      · exact .inr ⟨h, h'⟩
      · exact h.elim (fun h => nomatch h.1) False.elim
  · intro hd
    obtain ⟨w, k, hk⟩ := (hX 0).d hd
    obtain ⟨s, hs⟩ := one hk
    exact ⟨1, by decide, _, s, some.bind hs fun _ _ hx hy _ => (after_owns hy).mpr (.inl hx)⟩
  · intro hd
    obtain ⟨w, k, hk⟩ := (hX 0).s hd
    obtain ⟨s, hs⟩ := one hk
    exact ⟨1, by decide, _, s, some.bind hs fun _ _ _ hy ⟨_, hx, h⟩ => (after_spills hy).mpr (.inr (h hx))⟩
  · rintro (hl | ⟨hs, hf⟩)
    · obtain ⟨w, hw⟩ := (hX 0).l hl
      refine ⟨1, by decide, ends (by decide) fun pre n => ⟨(setLoop_key (hw pre n).1).1, ?_⟩⟩
      rw [(setLoop_key (hw pre n).1).2]
      exact append_nonempty.mpr (.inl (hw pre n).2)
    · obtain ⟨w, k, hk⟩ := (hX 0).s hs
      refine ⟨2, by decide, ends (w := w ++ []) (by decide) fun pre n => ?_⟩
      obtain ⟨h1, h2, h3⟩ := hk pre [] n
      obtain ⟨s', own', kept', -, -, k3, e1, -, -, -, -, e6⟩ :=
        setLoop_entry (c := 1) (s := ⟨[], List.nodup_nil⟩) (own := []) (kept := []) h1
      have hlen : (pre ++ (w ++ [])).length = pre.length + w.length := by simp
      have h4 := (hX 1).f hf (pre ++ (w ++ [])) (atItem 0 K ⟨pre ++ (w ++ []), pre.length⟩ n).next
      rw [hlen, ← h2] at h4
      have h5 := setLoop_key (c := 0) (i := 1) (s := s') (own := own') (kept := kept') h4
      refine ⟨fun a ha => h5.1 a (e1.symm.trans ha), ?_⟩
      rcases h3 with h | h
      · exact e6 (.inr (by rw [h5.2]; exact append_nonempty.mpr (.inr (k3 (by simp) h))))
      · exact e6 (.inl h)

end Acct

end set

end Oct
