import Verif.Proofs.ProtectorsSlot
import Verif.Proofs.ProtectorsShape
import Verif.Props.Borrows
import Verif.Props.SlotBorrows
/-
C152: protectors forbid nothing that the crate does.
-/
namespace Oct.Props
open Spec Alias

/-- C152: with protectors, what programs that own a sized slice or a slot do is what they do without. -/
theorem C152_plain (p : Place) (d : Nat) (o : Owner) (cs : List Call) (ss : List SlotCall) :
    plain (marks p d o cs) = events p d o cs ∧ plain (slotMarks p d o ss) = slotEvents p d o ss :=
  ⟨marks_same p d o cs, slotMarks_same p d o ss⟩

example : plain (marks ⟨0, 2⟩ 3 (Owner.new 1) [.len]) = [.retag .shared 0 2 ⟨0, 3⟩, .read 2 ⟨2, 1⟩] := rfl

/-- C152: and functions are entered and left as they should be: whatever a program did before, each method of it enters
just those functions, with references to just those regions, and leaves them in the opposite order. -/
theorem C152_calls (p : Place) (d : Nat) (o : Owner) :
    (∀ c : Call, (∀ k i, c = .get k i ∨ c = .set k i → k < o.held.length) →
      beats [] (c.marks p d o) = some (callBeats p d o.len c)) ∧
    (∀ c : SlotCall, (∀ k i, c = .get k i ∨ c = .set k i → k < o.held.length) →
      beats [] (c.marks p d o) = some (slotCallBeats p d c)) :=
  ⟨fun c h => (call_shown p d o c h).all, fun c h => (slotCall_shown p d o c h).all⟩

example : beats [] (marks ⟨0, 2⟩ 3 (Owner.new 1) [.eachRef, .get 0 0]) =
    some [.into .shared ⟨0, 3⟩, .does, .into .shared ⟨0, 3⟩, .into .shared ⟨0, 2⟩, .does, .out, .out, .out, .does] := rfl

/-- C152: under Stacked Borrows, any program that owns a sized slice – whether it compiles or not – has no undefined
behaviour with protectors exactly if it has none without. -/
theorem C152_stacked (p : Place) (d : Nat) (hd : Apart p d) (n : Nat) (cs : List Call) (hc : Room p.cap cs) :
    DefinedP StackedP p (marks p d (Owner.new n) cs) ↔ Defined Stacked p (events p d (Owner.new n) cs) := by
  rw [← marks_same]
  exact stackShielded.defined p fun l => marks_fit p d hd l (Owner.new n) (Nat.le_refl 2) cs hc

example : Apart ⟨0, 4⟩ 5 ∧ Room 4 [.copyFromSlice 3, .asMutSlice, .asSlice, .set 0 1, .get 1 0] := by
  refine ⟨.inl (Nat.le_refl 5), fun n hn => ?_⟩
  simp only [List.mem_cons, Call.copyFromSlice.injEq, reduceCtorEq, List.not_mem_nil, or_false] at hn
  omega

/-- C152: likewise under Tree Borrows. -/
theorem C152_tree (p : Place) (d : Nat) (hd : Apart p d) (n : Nat) (cs : List Call) (hc : Room p.cap cs) :
    DefinedP TreeP p (marks p d (Owner.new n) cs) ↔ Defined Tree p (events p d (Owner.new n) cs) := by
  rw [← marks_same]
  exact treeShielded.defined p fun l => marks_fit p d hd l (Owner.new n) (Nat.le_refl 2) cs hc

example : Apart ⟨9, 2⟩ 1 ∧ Room 2 [.eachMut, .set 0 0, .eachRef] :=
  ⟨.inr (by show 1 + 2 ≤ 9; omega), fun n hn => by simp at hn⟩

/-- C152: likewise for any program that owns a slot, under both. -/
theorem C152_slot (p : Place) (d : Nat) (hd : Behind p d) (n : Nat) (hn : n ≤ p.cap) (cs : List SlotCall)
    (hc : SlotRoom p.cap cs) :
    (DefinedP StackedP p (slotMarks p d (Owner.new n) cs) ↔ Defined Stacked p (slotEvents p d (Owner.new n) cs)) ∧
    (DefinedP TreeP p (slotMarks p d (Owner.new n) cs) ↔ Defined Tree p (slotEvents p d (Owner.new n) cs)) := by
  rw [← slotMarks_same]
  exact ⟨stackShielded.defined p fun l => slotMarks_fit p d hd l (Owner.new n) (Nat.le_refl 2) hn cs hc,
    treeShielded.defined p fun l => slotMarks_fit p d hd l (Owner.new n) (Nat.le_refl 2) hn cs hc⟩

example : Behind ⟨0, 4⟩ 5 ∧ SlotRoom 4 [.write [1, 9] true, .asMutPtr, .setLen 3, .set 0 1] := by
  refine ⟨by show 0 + 4 < 5; omega, fun n => ⟨fun hn => ?_, fun hn => ?_⟩⟩ <;>
  · simp at hn
    try omega

/-- What compiles copies to where there is room. -/
theorem checked_room {rule : Loan → Prop} {cap : Nat} : (cs : List Call) → (len : Nat) → (loans : List Loan) →
    Checked rule cap len loans cs → Room cap cs
  | [], _, _, _, _, h => nomatch h
  | c :: cs, len, loans, hc, n, hn => by
    rcases List.mem_cons.mp hn with rfl | hn
    · exact hc.1
    · exact checked_room cs _ _ hc.2 n hn

theorem slotChecked_room {cap : Nat} : (cs : List SlotCall) → (len : Nat) → (loans : List Loan) →
    SlotChecked cap len loans cs → SlotRoom cap cs
  | [], _, _, _, _ => ⟨fun h => (nomatch h), fun h => (nomatch h)⟩
  | c :: cs, len, loans, hc, n => by
    have ih := slotChecked_room cs _ _ hc.2 n
    refine ⟨fun hn => ?_, fun hn => ?_⟩
    · rcases List.mem_cons.mp hn with rfl | hn
      · exact hc.1
      · exact ih.1 hn
    · rcases List.mem_cons.mp hn with rfl | hn
      · exact hc.1
      · exact ih.2 hn

/-- C152: so a program that owns a sized slice and compiles has no undefined behaviour with protectors either; under
Stacked Borrows, if of what `each_mut` returns it uses only the last. -/
theorem C152_compiles (p : Place) (d : Nat) (hd : Apart p d) (n : Nat) (hn : n ≤ p.cap) (cs : List Call) :
    (Checked lastLoan p.cap n [] cs → DefinedP StackedP p (marks p d (Owner.new n) cs)) ∧
    (Checked anyLoan p.cap n [] cs → DefinedP TreeP p (marks p d (Owner.new n) cs)) :=
  ⟨fun hc => (C152_stacked p d hd n cs (checked_room cs _ _ hc)).mpr (C150_stacked_partial p d hd n hn cs hc),
    fun hc => (C152_tree p d hd n cs (checked_room cs _ _ hc)).mpr (C150_tree p d hd n hn cs hc)⟩

example : Checked lastLoan 2 1 [] [.asMutSlice, .set 0 0] :=
  ⟨trivial, ⟨_, rfl, rfl, rfl, by decide, fun _ => rfl⟩, trivial⟩

/-- C152: nor has one that owns a slot. -/
theorem C152_slot_compiles (p : Place) (d : Nat) (hd : Behind p d) (n : Nat) (hn : n ≤ p.cap) (cs : List SlotCall)
    (hc : SlotChecked p.cap n [] cs) : DefinedP StackedP p (slotMarks p d (Owner.new n) cs) ∧
      DefinedP TreeP p (slotMarks p d (Owner.new n) cs) :=
  have h := C152_slot p d hd n hn cs (slotChecked_room cs _ _ hc)
  ⟨h.1.mpr (C151_stacked p d hd n hn cs hc), h.2.mpr (C151_tree p d hd n hn cs hc)⟩

example : SlotChecked 2 1 [] [.asMutSlice, .set 0 0] := ⟨trivial, ⟨_, rfl, rfl, rfl, by decide⟩, trivial⟩

/-- At any location of a region all that is in it happens, and elsewhere nothing does. -/
theorem defined_of {σ : Type} {R : Rules σ} {p : Place} {es : List Event} {s : σ} (hr : ∀ e ∈ es, e.region = p.whole)
    (h : ∀ l, p.whole.has l = true → runAt R l es (R.start ownerTag) = some s) : Defined R p es := by
  intro l
  by_cases hl : p.whole.has l = true
  · rw [if_pos hl]
    exact ⟨s, h l hl⟩
  · exact ⟨_, runAt_miss es _ fun e he => by rw [hr e he]; exact hl⟩

theorem at_whole (p : Place) : p.whole.has p.at_ = true := by
  rw [has_iff]
  simp only [Place.whole]
  omega

/-- C152: protectors do forbid something: while a function runs that has a reference to the whole, this may not be written
by its owner; nor read, if it was written by the function. Without protectors, all these are defined. -/
theorem C152_forbidden (p : Place) :
    let ws : List Mark := [.enter .excl ownerTag 2 p.whole, .event (.write ownerTag p.whole)]
    let fs : List Mark := [.enter .shared ownerTag 2 p.whole, .event (.write ownerTag p.whole)]
    let rs : List Mark := [.enter .excl ownerTag 2 p.whole, .event (.write 2 p.whole), .event (.read ownerTag p.whole)]
    ∀ ms, ms = ws ∨ ms = fs ∨ ms = rs → (Defined Stacked p (plain ms) ∧ ¬ DefinedP StackedP p ms) ∧
      (Defined Tree p (plain ms) ∧ ¬ DefinedP TreeP p ms) := by
  have hw := at_whole p
  intro ws fs rs ms hms
  have hr : ∀ e ∈ plain ms, e.region = p.whole := by
    rcases hms with rfl | rfl | rfl <;> intro e he <;>
      simp only [ws, fs, rs, plain, List.mem_cons, List.not_mem_nil, or_false] at he
    · rcases he with rfl | rfl <;> rfl
    · rcases he with rfl | rfl <;> rfl
    · rcases he with rfl | rfl | rfl <;> rfl
  have no : ∀ {τ : Type} (Q : Protecting τ), runMarks Q p.at_ ms (Q.start ownerTag, []) = none → ¬ DefinedP Q p ms := by
    intro τ Q h hd
    obtain ⟨x, hx⟩ := hd p.at_
    rw [if_pos hw, h] at hx
    nomatch hx
  rcases hms with rfl | rfl | rfl
  · refine ⟨⟨defined_of (s := [⟨0, .unique⟩]) hr fun l hl => ?_, no _ ?_⟩,
      defined_of (s := [⟨2, [2], [2, 0], .disabled⟩, ⟨0, [0], [0], .active⟩]) hr fun l hl => ?_, no _ ?_⟩
    · simp only [ws, plain, runAt, Event.act, hl, if_true]
      rfl
    · simp only [ws, runMarks, Mark.act, hw, if_true]
      rfl
    · simp only [ws, plain, runAt, Event.act, hl, if_true]
      rfl
    · simp only [ws, runMarks, Mark.act, hw, if_true]
      rfl
  · refine ⟨⟨defined_of (s := [⟨0, .unique⟩]) hr fun l hl => ?_, no _ ?_⟩,
      defined_of (s := [⟨2, [2], [2, 0], .disabled⟩, ⟨0, [0], [0], .active⟩]) hr fun l hl => ?_, no _ ?_⟩
    · simp only [fs, plain, runAt, Event.act, hl, if_true]
      rfl
    · simp only [fs, runMarks, Mark.act, hw, if_true]
      rfl
    · simp only [fs, plain, runAt, Event.act, hl, if_true]
      rfl
    · simp only [fs, runMarks, Mark.act, hw, if_true]
      rfl
  · refine ⟨⟨defined_of (s := [⟨2, .disabled⟩, ⟨0, .unique⟩]) hr fun l hl => ?_, no _ ?_⟩,
      defined_of (s := [⟨2, [2], [2, 0], .frozen⟩, ⟨0, [0], [0], .active⟩]) hr fun l hl => ?_, no _ ?_⟩
    · simp only [rs, plain, runAt, Event.act, hl, if_true]
      rfl
    · simp only [rs, runMarks, Mark.act, hw, if_true]
      rfl
    · simp only [rs, plain, runAt, Event.act, hl, if_true]
      rfl
    · simp only [rs, runMarks, Mark.act, hw, if_true]
      rfl

example : plain [.enter .excl 0 2 ⟨0, 1⟩, .event (.write 0 ⟨0, 1⟩), .leave 2 ⟨0, 1⟩]
    = [.retag .excl 0 2 ⟨0, 1⟩, .write 0 ⟨0, 1⟩] := rfl

/-- C152: under Tree Borrows, if the owner reads while a function runs that has a `&mut` to the whole, then this may not
be written to before the function has returned; after that it may. -/
theorem C152_conflict (p : Place) :
    let ms : List Mark := [.enter .excl ownerTag 2 p.whole, .event (.read ownerTag p.whole), .event (.write 2 p.whole),
      .leave 2 p.whole]
    let ns : List Mark := [.enter .excl ownerTag 2 p.whole, .event (.read ownerTag p.whole), .leave 2 p.whole,
      .event (.write 2 p.whole)]
    plain ms = plain ns ∧ Defined Tree p (plain ms) ∧ ¬ DefinedP TreeP p ms ∧ DefinedP TreeP p ns := by
  have hw := at_whole p
  intro ms ns
  refine ⟨rfl, defined_of (s := [⟨2, [2], [2, 0], .active⟩, ⟨0, [0], [0], .active⟩]) ?_ fun l hl => ?_, fun hd => ?_,
    fun l => ?_⟩
  · intro e he
    simp only [ms, plain, List.mem_cons, List.not_mem_nil, or_false] at he
    rcases he with rfl | rfl | rfl <;> rfl
  · simp only [ms, plain, runAt, Event.act, hl, if_true]
    rfl
  · obtain ⟨x, hx⟩ := hd p.at_
    rw [if_pos hw] at hx
    simp only [ms, runMarks, Mark.act, hw, if_true] at hx
    nomatch hx
  · by_cases hl : p.whole.has l = true
    · refine ⟨(⟨[⟨2, [2], [2, 0], .active⟩, ⟨0, [0], [0], .active⟩], [2]⟩, []), ?_⟩
      rw [if_pos hl]
      simp only [ns, runMarks, Mark.act, hl, if_true]
      rfl
    · rw [if_neg hl]
      simp only [ns, runMarks, Mark.act, hl]
      exact ⟨_, rfl⟩

example : (⟨3, 0⟩ : Place).whole.has 3 = true := rfl

end Oct.Props
