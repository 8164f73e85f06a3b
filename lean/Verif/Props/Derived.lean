import Verif.Proofs.Derived
import Verif.Props.Samples
/-
C36-C38: derived structures and enumerations.
-/
namespace Oct.Props
open Oct Spec
set_option linter.unusedVariables false

/-- C36. The discriminants that the macros assign are, in order, those of the language. -/
theorem C36_discriminants (vs : Variants) :
    vs.discs none = (List.range (variantCount vs)).map (discOf (explicitDiscs vs)) :=
  discs_eq_discOf vs

/-- C36: the language's rule, as a recurrence: the stated literal, else one more than the previous,
else zero. -/
theorem C36_rule (ex : List (Option Nat)) (j : Nat) (hj : j < ex.length) :
    (∀ d, ex[j] = some d → discOf ex j = d) ∧
    (ex[j] = none → discOf ex j = if j = 0 then 0 else discOf ex (j - 1) + 1) := by
  have hs := discOf_step ex j ex[j] (List.getElem?_eq_getElem hj)
  constructor
  · intro d hd
    rw [hs, hd]
    rfl
  · intro hd
    rw [hs, hd]
    by_cases h0 : j = 0
    · rw [if_pos h0, if_pos h0]; rfl
    · rw [if_neg h0, if_neg h0]; rfl

/-- C36. A variant is encoded as its discriminant (by the language's rule), as an integer of the
representation type, then its fields (as they are encoded in a structure). -/
theorem C36_encode (r : Repr) (vs : Variants) (j : Nat) (fs : Fields) (f : fs.Val → vs.Val)
    (h : VariantAt vs j fs f) (fv : fs.Val) (w : List Byte) (hw : EncodesTo (.struct fs) fv w)
    (hd : ReprEncodable r (discOf (explicitDiscs vs) j)) :
    EncodesTo (.enum r vs) (f fv) (reprWire r (discOf (explicitDiscs vs) j) ++ w) := by
  obtain ⟨he, rfl⟩ := encodesTo_iff.mp hw
  have hv := h.wire r (explicitDiscs vs) fv 0
  rw [Nat.zero_add] at hv
  exact encodesTo' (t := .enum r vs) (v := f fv) (hv.2.mpr ⟨hd, he⟩) hv.1

/-- C36: a discriminant outside the wire range of `usize` or `isize` is reported, and nothing is
written. -/
theorem C36_bad_discriminant (r : Repr) (vs : Variants) (j : Nat) (fs : Fields)
    (f : fs.Val → vs.Val) (h : VariantAt vs j fs f) (fv : fs.Val)
    (hd : ¬ ReprEncodable r (discOf (explicitDiscs vs) j)) (o : Output) :
    ∃ e, (e = .usize (discOf (explicitDiscs vs) j) ∨ e = .isize (discOf (explicitDiscs vs) j)) ∧
      (Ty.enum r vs).encode (f fv) o = (.err (.badDiscriminant e), o) := by
  obtain ⟨e, he, hr⟩ := encRepr_bad r _ hd o
  refine ⟨e, he, ?_⟩
  have hv := h.encode r none (explicitDiscs vs) 0 (by simp) (by simp) fv
  rw [Nat.zero_add] at hv
  show vs.encode r none (f fv) o = _
  rw [hv]
  show Enc.bind _ _ _ = _
  unfold Enc.bind Enc.mapErr
  rw [hr]
  rfl

/-- C36: an error of a field is reported as `BadField` of what a structure of the same fields reports,
after the discriminant has been written. -/
theorem C36_bad_field (r : Repr) (vs : Variants) (j : Nat) (fs : Fields)
    (f : fs.Val → vs.Val) (h : VariantAt vs j fs f) (fv : fs.Val)
    (hd : ReprEncodable r (discOf (explicitDiscs vs) j)) (o : Output) (ho : o.position ≤ o.capacity)
    (hroom : r.bytes ≤ o.remaining) :
    ∃ o1 : Output, o1.asSlice = o.asSlice ++ reprWire r (discOf (explicitDiscs vs) j) ∧
      o1.capacity = o.capacity ∧
      ∀ e o2, (Ty.struct fs).encode fv o1 = (.err e, o2) →
        (Ty.enum r vs).encode (f fv) o = (.err (.badField e), o2) := by
  have hl : (reprWire r (discOf (explicitDiscs vs) j)).length ≤ o.remaining := by
    rw [show (reprWire r (discOf (explicitDiscs vs) j)).length = r.bytes from leBytes_length _ _]
    exact hroom
  have hobs := Output.put_obs ho hl
  refine ⟨o.put (reprWire r (discOf (explicitDiscs vs) j)), hobs.2.2.1, hobs.2.1, ?_⟩
  intro e o2 he
  have hv := h.encode r none (explicitDiscs vs) 0 (by simp) (by simp) fv
  rw [Nat.zero_add] at hv
  have hr := (((encRepr_encodes r (discOf (explicitDiscs vs) j) (.inr (by omega))).emits hd) o ho).1 hl
  show vs.encode r none (f fv) o = _
  rw [hv]
  show Enc.bind _ _ _ = _
  unfold Enc.bind
  have hm : (encRepr r (discOf (explicitDiscs vs) j)).mapErr .badDiscriminant o
      = (.ok (), o.put (reprWire r (discOf (explicitDiscs vs) j))) := by
    unfold Enc.mapErr
    rw [hr]
    rfl
  rw [hm]
  show fs.encode (fun e => EncErr.badField (EncErr.toGeneric e)) fv _ = _
  rw [← Fields.encode_mapErr fs .badField EncErr.toGeneric fv]
  unfold Enc.mapErr
  rw [show fs.encode EncErr.toGeneric fv (o.put _) = (.err e, o2) from he]
  rfl

example : VariantAt (.cons (some 2) .nil (.cons none (.cons .bool .nil) .nil)) 1 (.cons .bool .nil)
    (fun v => .inr (.inl v)) := .there _ _ (.here _ _ _)
example : discOf (explicitDiscs (.cons (some 2) .nil (.cons none (.cons .bool .nil) .nil))) 1 = 3 := by
  decide
example : ¬ ReprEncodable .isize (discOf [some 40000] 0) := by decide

/-- C37. If the discriminant belongs to variant `j`, then decoding has the outcome of decoding the
fields of that variant (as a structure), with errors reported as `BadField`. -/
theorem C37_assigned (r : Repr) (vs : Variants) (hw : (Ty.enum r vs).WF) (j : Nat) (fs : Fields)
    (f : fs.Val → vs.Val) (h : VariantAt vs j fs f)
    (hd : ReprEncodable r (discOf (explicitDiscs vs) j)) (w : List Byte) (res : Res DecErr fs.Val)
    (hf : Yields (Ty.struct fs).decode w res) :
    Yields (Ty.enum r vs).decode (reprWire r (discOf (explicitDiscs vs) j) ++ w)
      ((res.map f).mapErr .badField) := by
  have hmem : discOf (explicitDiscs vs) j ∈ vs.discs none := by
    rw [discs_eq_discOf, List.mem_map]
    exact ⟨j, List.mem_range.mpr h.lt, rfl⟩
  have h1 : Yields (decRepr r) (reprWire r (discOf (explicitDiscs vs) j)) (.ok _) :=
    decRepr_decodes r _ (hw.2.1 _ hmem).1 hd
  refine h1.bind ?_
  have h2 := h.decode none (explicitDiscs vs) 0 (by simp) (by simp) hw.1 w (res.mapErr .badField) ?_
  · rw [Nat.zero_add] at h2
    cases res <;> exact h2
  · have hf' : Yields (fs.decode DecErr.toGeneric) w res := hf
    have := hf'.mapErr .badField
    rw [Fields.decode_mapErr] at this
    exact this

/-- C37. If the number read is not the discriminant of any variant, then it is reported, and nothing
else is consumed. -/
theorem C37_unassigned (r : Repr) (vs : Variants) (x : Int) (hx : r.InRange x)
    (he : ReprEncodable r x) (hn : ∀ j < variantCount vs, x ≠ discOf (explicitDiscs vs) j) :
    Yields (Ty.enum r vs).decode (reprWire r x) (.err (.unassigned x)) := by
  have h1 : Yields (decRepr r) (reprWire r x) (.ok x) := decRepr_decodes r x hx he
  refine h1.map (Variants.decode_unassigned vs none x ?_)
  intro d hd
  rw [discs_eq_discOf, List.mem_map] at hd
  obtain ⟨j, hj, rfl⟩ := hd
  exact hn j (List.mem_range.mp hj)

/-- C37: one of the two always applies: as many octets as a discriminant has are always the encoding
of a number, which either belongs to exactly one variant or to none. -/
theorem C37_cases (r : Repr) (vs : Variants) (hw : (Ty.enum r vs).WF) (w : List Byte)
    (h : w.length = r.bytes) : ∃ x, r.InRange x ∧ ReprEncodable r x ∧ reprWire r x = w ∧
      ((∃ j < variantCount vs, x = discOf (explicitDiscs vs) j ∧
          ∀ j' < variantCount vs, x = discOf (explicitDiscs vs) j' → j' = j) ∨
        ∀ j < variantCount vs, x ≠ discOf (explicitDiscs vs) j) := by
  obtain ⟨x, h1, h2, h3, -⟩ := decRepr_yields r w h
  refine ⟨x, h1, h2, h3, ?_⟩
  by_cases hx : ∃ j < variantCount vs, x = discOf (explicitDiscs vs) j
  · obtain ⟨j, hj, rfl⟩ := hx
    refine .inl ⟨j, hj, rfl, ?_⟩
    intro j' hj' he
    have hn := hw.1
    rw [discs_eq_discOf] at hn
    have he' : discOf (explicitDiscs vs) j = discOf (explicitDiscs vs) j' := by omega
    refine (List.getElem?_inj (by simpa using hj') hn).mp ?_
    rw [List.getElem?_map, List.getElem?_map, List.getElem?_range hj', List.getElem?_range hj]
    exact congrArg some he'.symm
  · refine .inr ?_
    intro j hj he
    exact hx ⟨j, hj, he⟩

/-- C37: every variant number below the count does have fields, and every value is of one variant, so
the theorems above cover all. -/
theorem C37_cover (vs : Variants) :
    (∀ j < variantCount vs, ∃ fs f, VariantAt vs j fs f) ∧
    ∀ v : vs.Val, ∃ j fs f fv, VariantAt vs j fs f ∧ v = f fv :=
  ⟨Spec.VariantAt.exists vs, Spec.VariantAt.cover vs⟩

example : ∀ j < variantCount (.cons (some 2) .nil (.cons none (.cons .bool .nil) .nil)),
    (4 : Int) ≠ discOf (explicitDiscs (.cons (some 2) .nil (.cons none (.cons .bool .nil) .nil))) j := by
  decide
example : shapeTy.decode (Input.new [4, 5]) = (.err (.unassigned 4), ⟨[4, 5], 1⟩) := rfl
example : shapeTy.decode (Input.new [7, 1, 0, 0xFF])
    = (.err (.badField (.gBadString 0xFF 0)), ⟨[7, 1, 0, 0xFF], 4⟩) := rfl

/-- C38. A structure or tuple of no fields is encoded as nothing; with one field more in front, as
that field and then the others. -/
theorem C38_concat (t : Ty) (fs : Fields) (v : t.Val) (vs : fs.Val) (w ws : List Byte)
    (hv : EncodesTo t v w) :
    EncodesTo (.struct .nil) () [] ∧ EncodesTo (.tuple .nil) () [] ∧
    (EncodesTo (.struct fs) vs ws → EncodesTo (.struct (.cons t fs)) (v, vs) (w ++ ws)) ∧
    (EncodesTo (.tuple fs) vs ws → EncodesTo (.tuple (.cons t fs)) (v, vs) (w ++ ws)) := by
  obtain ⟨he, rfl⟩ := encodesTo_iff.mp hv
  refine ⟨encodesTo' (t := .struct .nil) (v := ()) trivial rfl,
    encodesTo' (t := .tuple .nil) (v := ()) trivial rfl, ?_, ?_⟩
  · intro h
    obtain ⟨hs, rfl⟩ := encodesTo_iff.mp h
    exact encodesTo' (t := .struct (.cons t fs)) (v := (v, vs)) ⟨he, hs⟩ rfl
  · intro h
    obtain ⟨hs, rfl⟩ := encodesTo_iff.mp h
    exact encodesTo' (t := .tuple (.cons t fs)) (v := (v, vs)) ⟨he, hs⟩ rfl

/-- C38, backwards: what a structure is encoded as is a first field's encoding and the others'. -/
theorem C38_split (t : Ty) (fs : Fields) (v : t.Val) (vs : fs.Val) (u : List Byte)
    (h : EncodesTo (.struct (.cons t fs)) (v, vs) u) :
    ∃ w ws, u = w ++ ws ∧ EncodesTo t v w ∧ EncodesTo (.struct fs) vs ws := by
  obtain ⟨he, rfl⟩ := encodesTo_iff.mp h
  exact ⟨wire t v, wireFields fs vs, rfl, encodesTo he.1, encodesTo' (t := .struct fs) (v := vs) he.2 rfl⟩

/-- C38. A structure (or tuple) of one field can be encoded where the field can, to the same
effect. -/
theorem C38_single (t : Ty) (v : t.Val) :
    EncodesSame (.struct (.cons t .nil)) (v, ()) t v ∧
    EncodesSame (.tuple (.cons t .nil)) (v, ()) t v :=
  ⟨encodesSame (t := .struct (.cons t .nil)) (v := (v, ())) (List.append_nil _)
      ⟨fun h => h.1, fun h => ⟨h, trivial⟩⟩,
    encodesSame (t := .tuple (.cons t .nil)) (v := (v, ())) (List.append_nil _)
      ⟨fun h => h.1, fun h => ⟨h, trivial⟩⟩⟩

/-- C38. A structure and a tuple of the same fields are encoded alike. -/
theorem C38_tuple (fs : Fields) (v : fs.Val) : EncodesSame (.struct fs) v (.tuple fs) v :=
  encodesSame (t := .struct fs) (t' := .tuple fs) rfl Iff.rfl

/-- C38. Grouping consecutive fields into a nested structure or tuple, anywhere, does not change the
encoding. -/
theorem C38_regroup (fs gs hs : Fields) (a : fs.Val) (b : gs.Val) (c : hs.Val) :
    EncodesSame (.struct (appendFields fs (.cons (.struct gs) hs))) (appendVals fs a (b, c))
      (.struct (appendFields fs (appendFields gs hs))) (appendVals fs a (appendVals gs b c)) ∧
    EncodesSame (.struct (appendFields fs (.cons (.tuple gs) hs))) (appendVals fs a (b, c))
      (.struct (appendFields fs (appendFields gs hs))) (appendVals fs a (appendVals gs b c)) := by
  have h2 := wireFields_append fs a (appendVals gs b c)
  have h3 := wireFields_append gs b c
  rw [h3.1, h3.2] at h2
  have h1 := wireFields_append fs (gs := .cons (.struct gs) hs) a (b, c)
  have h1' := wireFields_append fs (gs := .cons (.tuple gs) hs) a (b, c)
  refine ⟨encodesSame ?_ ?_, encodesSame ?_ ?_⟩
  · exact h1.1.trans h2.1.symm
  · exact h1.2.trans h2.2.symm
  · exact h1'.1.trans h2.1.symm
  · exact h1'.2.trans h2.2.symm

example : EncodesTo sampleTy sampleVal [1, 0x34, 0x12, 2, 0, 7, 8] :=
  encodesTo' sample_encodable sample_wire

end Oct.Props
