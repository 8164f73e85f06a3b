import Verif.Proofs.Evolution
import Verif.Props.Samples
/-
C75-C76: programs with different versions of a type.
-/
namespace Oct.Props
open Oct Spec
set_option linter.unusedVariables false

/-- C75. A value is encoded by the program with the grown type as by the program with the old one, in
every stream, whether this succeeds or fails. -/
theorem C75_encode (t u : Ty) (f : t.Val → u.Val) (h : Grows t u f) (v : t.Val) (o : Output) :
    u.encode (f v) o = t.encode v o :=
  congrFun (Oct.Grows.encode h v) o

/-- C75. Whatever the old program reads, the new program reads as the same value, up to the same
place; and different values stay different. -/
theorem C75_reads (t u : Ty) (f : t.Val → u.Val) (h : Grows t u f) :
    (∀ i v j, t.decode i = (.ok v, j) → u.decode i = (.ok (f v), j)) ∧
    ∀ v w, f v = f w → v = w := by
  refine ⟨?_, Oct.Grows.injective h⟩
  intro i v j hd
  have := Oct.Grows.agree h i
  rw [hd] at this
  exact this

/-- C75. Whatever the new program reads, the old program reads as the same value, unless it reports
that a discriminant is not assigned: it never takes a new variant for something else. -/
theorem C75_never_misread (t u : Ty) (f : t.Val → u.Val) (h : Grows t u f) (i : Input) (w : u.Val)
    (j : Input) (hw : u.decode i = (.ok w, j)) :
    (∃ v, f v = w ∧ t.decode i = (.ok v, j)) ∨ ∃ e j', t.decode i = (.err e, j') ∧ Unknown e := by
  have := Oct.Grows.agree h i
  cases hd : t.decode i with
  | mk r k =>
    rw [hd] at this
    cases r with
    | ok v =>
      simp only at this
      rw [hw] at this
      have h1 := Prod.mk.inj this
      exact .inl ⟨v, (Res.ok.inj h1.1).symm, by rw [h1.2]⟩
    | err e =>
      simp only at this
      rcases this with h1 | h1
      · rw [hw] at h1; exact nomatch (Prod.mk.inj h1).1
      · exact .inr ⟨e, k, rfl, h1⟩
    | panic p => simp only at this; rw [hw] at this; exact nomatch (Prod.mk.inj this).1
    | ub p => simp only at this; rw [hw] at this; exact nomatch (Prod.mk.inj this).1

/-- C75. Where the old program fails otherwise, the new program fails alike: with the same error or
panic, at the same place. -/
theorem C75_failures (t u : Ty) (f : t.Val → u.Val) (h : Grows t u f) (i j : Input) :
    (∀ e, t.decode i = (.err e, j) → ¬ Unknown e → u.decode i = (.err e, j)) ∧
    (∀ p, t.decode i = (.panic p, j) → u.decode i = (.panic p, j)) ∧
    (∀ x, t.decode i = (.ub x, j) → u.decode i = (.ub x, j)) := by
  have := Oct.Grows.agree h i
  refine ⟨?_, ?_, ?_⟩
  · intro e hd hu
    rw [hd] at this
    exact this.resolve_right hu
  · intro p hd
    rw [hd] at this
    exact this
  · intro p hd
    rw [hd] at this
    exact this

/-- C75. `MAX_ENCODED_SIZE` does not shrink, provided that `size_of` does not (`Result` uses it). -/
theorem C75_max_size (sizeOf : Ty → Nat)
    (hs : ∀ (t u : Ty) (f : t.Val → u.Val), Grows t u f → sizeOf t ≤ sizeOf u)
    (t u : Ty) (f : t.Val → u.Val) (h : Grows t u f) : t.maxSize sizeOf ≤ u.maxSize sizeOf :=
  Oct.Grows.maxSize sizeOf hs h

/-- `enum Message { Ping, Text(u8) }`, the version before. -/
abbrev messageOld : Ty :=
  .enum (.int .u8) (.cons none .nil (.cons none (.cons (.num (.int .u8)) .nil) .nil))

/-- `enum Message { Ping, Text(u8), Pair(u8, u8) }`, the version after. -/
abbrev messageNew : Ty :=
  .enum (.int .u8) (.cons none .nil (.cons none (.cons (.num (.int .u8)) .nil)
    (.cons none (.cons (.num (.int .u8)) (.cons (.num (.int .u8)) .nil)) .nil)))

/-- `enum Message { Ping, Pong, Text(u8) }`: the new variant is not behind the others. -/
abbrev messageMid : Ty :=
  .enum (.int .u8) (.cons none .nil (.cons none .nil (.cons none (.cons (.num (.int .u8)) .nil) .nil)))

/-- C75: lists of messages have grown with the messages; the old program refuses the new variant. -/
theorem C75_example : ∃ f, Grows (.seq .vec messageOld) (.seq .vec messageNew) f ∧
    (Ty.seq .vec messageOld).decode (Input.new [2, 0, 0, 2, 5, 6])
      = (.err (.badItem (.item 1 (.unassigned 2))), ⟨[2, 0, 0, 2, 5, 6], 4⟩) ∧
    ∃ v, (Ty.seq .vec messageNew).decode (Input.new [2, 0, 0, 2, 5, 6]) = (.ok v, ⟨[2, 0, 0, 2, 5, 6], 6⟩) :=
  ⟨_, .seq _ (.enum _ (.cons _ .nil (.cons _ (.cons (.same _) .nil) (.append _ Empty.elim)))), rfl, _, rfl⟩

/-- C75 does not extend to variants that are added in front of others: the old program's `Text(5)` is
read as `Pong`, and the new program's `Pong`, followed by anything, as `Text`. -/
theorem C75_middle_misread :
    messageOld.encode (.inr (.inl (5#8, ()))) (Output.new [0, 0]) = (.ok (), ⟨[1, 5], 2⟩) ∧
    messageMid.decode (Input.new [1, 5]) = (.ok (.inr (.inl ())), ⟨[1, 5], 1⟩) ∧
    messageMid.encode (.inr (.inl ())) (Output.new [0]) = (.ok (), ⟨[1], 1⟩) ∧
    messageOld.decode (Input.new [1, 7]) = (.ok (.inr (.inl (7#8, ()))), ⟨[1, 7], 2⟩) :=
  ⟨rfl, rfl, rfl, rfl⟩

/-- C76, in part: at the top level, fields may be appended to a structure. What the new program reads
is what the old program reads, which leaves the other fields in the stream. -/
theorem C76_old_reads_new_partial (fs gs : Fields) (i j : Input) (x : (appendFields fs gs).Val) :
    (Ty.struct (appendFields fs gs)).decode i = (.ok x, j) ↔
    ∃ v w k, x = appendVals fs v w ∧ (Ty.struct fs).decode i = (.ok v, k) ∧
      (Ty.struct gs).decode k = (.ok w, j) := by
  show (appendFields fs gs).decode _ i = _ ↔ _
  rw [Fields.decode_append]
  constructor
  · intro h
    unfold Dec.bind at h
    cases h1 : fs.decode DecErr.toGeneric i with
    | mk r k =>
      rw [h1] at h
      cases r with
      | ok v =>
        simp only at h
        cases h2 : gs.decode DecErr.toGeneric k with
        | mk r2 l =>
          rw [h2] at h
          cases r2 with
          | ok w =>
            have h3 := Prod.mk.inj h
            exact ⟨v, w, k, (Res.ok.inj h3.1).symm, h1, by rw [← h3.2]; exact h2⟩
          | err e => exact nomatch (Prod.mk.inj h).1
          | panic e => exact nomatch (Prod.mk.inj h).1
          | ub e => exact nomatch (Prod.mk.inj h).1
      | err e => exact nomatch (Prod.mk.inj h).1
      | panic e => exact nomatch (Prod.mk.inj h).1
      | ub e => exact nomatch (Prod.mk.inj h).1
  · rintro ⟨v, w, k, rfl, h1, h2⟩
    have h1' : fs.decode DecErr.toGeneric i = (.ok v, k) := h1
    have h2' : gs.decode DecErr.toGeneric k = (.ok w, j) := h2
    unfold Dec.bind
    rw [h1']
    simp only
    rw [h2']
    rfl

/-- C76: where the old program fails, the new program fails alike. -/
theorem C76_failures (fs gs : Fields) (i j : Input) :
    (∀ e, (Ty.struct fs).decode i = (.err e, j) →
      (Ty.struct (appendFields fs gs)).decode i = (.err e, j)) ∧
    ∀ p, (Ty.struct fs).decode i = (.panic p, j) →
      (Ty.struct (appendFields fs gs)).decode i = (.panic p, j) := by
  constructor
  · intro e h
    have h' : fs.decode DecErr.toGeneric i = (.err e, j) := h
    show (appendFields fs gs).decode _ i = _
    rw [Fields.decode_append]
    unfold Dec.bind
    rw [h']
    rfl
  · intro e h
    have h' : fs.decode DecErr.toGeneric i = (.panic e, j) := h
    show (appendFields fs gs).decode _ i = _
    rw [Fields.decode_append]
    unfold Dec.bind
    rw [h']
    rfl

/-- C76: the octets of the new structure are those of the old one and then those of the fields
appended. -/
theorem C76_encode (fs gs : Fields) (v : fs.Val) (w : gs.Val) (bs : List Byte) :
    EncodesTo (.struct (appendFields fs gs)) (appendVals fs v w) bs ↔
    ∃ a b, bs = a ++ b ∧ EncodesTo (.struct fs) v a ∧ EncodesTo (.struct gs) w b := by
  have hw := wireFields_append fs v w
  constructor
  · intro h
    obtain ⟨he, rfl⟩ := encodesTo_iff.mp h
    have he' := hw.2.mp he
    exact ⟨wireFields fs v, wireFields gs w, hw.1, encodesTo' (t := .struct fs) (v := v) he'.1 rfl,
      encodesTo' (t := .struct gs) (v := w) he'.2 rfl⟩
  · rintro ⟨a, b, rfl, ha, hb⟩
    obtain ⟨h1, rfl⟩ := encodesTo_iff.mp ha
    obtain ⟨h2, rfl⟩ := encodesTo_iff.mp hb
    exact encodesTo' (t := .struct (appendFields fs gs)) (v := appendVals fs v w) (hw.2.mpr ⟨h1, h2⟩) hw.1

/-- C76 fails the other way: the new program panics on the old structure. -/
theorem C76_new_reads_old_false :
    (Ty.struct (.cons .bool .nil)).encode (true, ()) (Output.new [0]) = (.ok (), ⟨[1], 1⟩) ∧
    ∃ p j, (Ty.struct (.cons .bool (.cons .bool .nil))).decode (Input.new [1]) = (.panic p, j) :=
  ⟨rfl, _, _, rfl⟩

/-- C76 fails inside other types: of two new structures in a list, the old program reads the second
field of the first as the second structure, without an error. -/
theorem C76_nested_false :
    (Ty.seq .vec (.struct (.cons (.num (.int .u8)) (.cons (.num (.int .u8)) .nil)))).encode
      [(1#8, 2#8, ()), (3#8, 4#8, ())] (Output.new [0, 0, 0, 0, 0, 0])
      = (.ok (), ⟨[2, 0, 1, 2, 3, 4], 6⟩) ∧
    (Ty.seq .vec (.struct (.cons (.num (.int .u8)) .nil))).decode (Input.new [2, 0, 1, 2, 3, 4])
      = (.ok [(1#8, ()), (2#8, ())], ⟨[2, 0, 1, 2, 3, 4], 4⟩) :=
  ⟨rfl, rfl⟩

example : (Ty.struct (appendFields (.cons .bool .nil) (.cons .bool .nil))).decode (Input.new [1, 0])
    = (.ok (appendVals (.cons .bool .nil) (true, ()) (gs := .cons .bool .nil) (false, ())), ⟨[1, 0], 2⟩) := rfl

end Oct.Props
