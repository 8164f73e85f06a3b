import Verif.Proofs.Damage
import Verif.Props.ExactTypes
import Verif.Proofs.Values
/-
C140: what becomes of a value if the octets of one of its parts are changed.
-/
namespace Oct.Props
open Oct Spec

/-- C140 (part). Whatever has become of the octets behind some fields, these are decoded as before: the outcome is
that for the other fields, put behind them. -/
theorem C140_before (fs gs : Fields) (A D pre : List Byte) (a : fs.Val)
    (hA : Yields (Ty.struct fs).decode A (.ok a)) :
    (Ty.struct (appendFields fs gs)).decode ⟨pre ++ (A ++ D), pre.length⟩ =
      OnlyPart ((Ty.struct gs).decode ⟨pre ++ A ++ D, (pre ++ A).length⟩) (fun c => appendVals fs a c) id 0 := by
  show (appendFields fs gs).decode DecErr.toGeneric _ = _
  rw [Fields.decode_append]
  show (fs.decode _ >>= fun v => gs.decode _ >>= fun w => pure (appendVals fs v w)) _ = _
  rw [prefix_bind (show Yields (fs.decode DecErr.toGeneric) A (.ok a) from hA)]
  show Dec.bind (gs.decode _) _ _ = OnlyPart (gs.decode _ _) _ _ _
  unfold Dec.bind
  cases gs.decode DecErr.toGeneric ⟨pre ++ A ++ D, (pre ++ A).length⟩ with
  | mk r i => cases r <;> rfl

/-- C140 (part). If the octets of a field are changed whose values all take as many octets, then the outcome is the
structure with only that field changed, or the failure of that field. Missing: other fields, see
`C140_exactly`. -/
theorem C140_struct_partial (fs gs : Fields) (t : Ty) (ht : OneLength t) (A B B' C pre rest : List Byte)
    (a : fs.Val) (v : t.Val) (c : gs.Val) (hA : Yields (Ty.struct fs).decode A (.ok a))
    (hB : Yields t.decode B (.ok v)) (hB' : B'.length = B.length) (hC : Yields (Ty.struct gs).decode C (.ok c)) :
    (Ty.struct (appendFields fs (.cons t gs))).decode ⟨pre ++ (A ++ (B' ++ (C ++ rest))), pre.length⟩ =
      OnlyPart (t.decode ⟨pre ++ A ++ (B' ++ (C ++ rest)), (pre ++ A).length⟩)
        (fun x => appendVals fs (gs := .cons t gs) a (x, c)) DecErr.toGeneric C.length :=
  fields_damaged ht hA hB hB' hC pre rest

/-- C140 (part). The same for the items of vectors and linked lists; the error names the item. -/
theorem C140_seq_partial (k : SeqKind) (t : Ty) (ht : OneLength t) (R1 B B' R2 pre rest : List Byte)
    (l1 l2 : List t.Val) (v : t.Val) (h1 : InTurn t.decode R1 l1) (hB : Yields t.decode B (.ok v))
    (hB' : B'.length = B.length) (h2 : InTurn t.decode R2 l2) (hn : l1.length + (l2.length + 1) ≤ 65535) :
    (Ty.seq k t).decode
        ⟨pre ++ (leBytes 2 (l1.length + (l2.length + 1)) ++ (R1 ++ (B' ++ (R2 ++ rest)))), pre.length⟩ =
      OnlyPart (t.decode ⟨pre ++ leBytes 2 (l1.length + (l2.length + 1)) ++ R1 ++ (B' ++ (R2 ++ rest)),
          (pre ++ leBytes 2 (l1.length + (l2.length + 1)) ++ R1).length⟩)
        (fun x => (show (Ty.seq k t).Val from l1 ++ x :: l2)) (fun e => .badItem (.item l1.length e)) R2.length := by
  show (decUsize >>= fun len => itemsList t.decode len 0) _ = _
  rw [prefix_bind (decUsize_yields _ hn), itemsList_damaged t.decode_local ht h1 hB hB' h2 rest 0, Nat.zero_add]
  rfl

/-- C140 (part). The same for the items of arrays. -/
theorem C140_array_partial (t : Ty) (ht : OneLength t) (R1 B B' R2 pre rest : List Byte)
    (l1 l2 : List t.Val) (v : t.Val) (h1 : InTurn t.decode R1 l1) (hB : Yields t.decode B (.ok v))
    (hB' : B'.length = B.length) (h2 : InTurn t.decode R2 l2) :
    let r := (Ty.array t (l1.length + (l2.length + 1))).decode ⟨pre ++ (R1 ++ (B' ++ (R2 ++ rest))), pre.length⟩
    (r.1.map (fun x : (Ty.array t (l1.length + (l2.length + 1))).Val => x.val), r.2) =
      OnlyPart (t.decode ⟨pre ++ R1 ++ (B' ++ (R2 ++ rest)), (pre ++ R1).length⟩)
        (fun x => l1 ++ x :: l2) (fun e => .badItem (.item l1.length e)) R2.length := by
  have h := itemsList_damaged t.decode_local ht h1 hB hB' h2 rest 0 pre
  rw [Nat.zero_add] at h
  rw [← h]
  show _ = Dec.bind (decItems t.decode _ 0) _ _
  unfold Dec.bind
  show (((decItems t.decode _ 0 _).1.map _), (decItems t.decode _ 0 _).2) = _
  cases decItems t.decode (l1.length + (l2.length + 1)) 0 ⟨pre ++ (R1 ++ (B' ++ (R2 ++ rest))), pre.length⟩ with
  | mk r i => cases r <;> rfl

/-- C140, exactly: damage to a field of type `t` never reaches the octet behind it just if all values of `t` take as
many octets. -/
theorem C140_exactly (t : Ty) :
    OneLength t ↔ ∀ (B B' : List Byte) (v w : t.Val) (x : Byte) (y : BitVec 8) (i : Input),
      Yields t.decode B (.ok v) → B'.length = B.length →
      (Ty.struct (.cons t (.cons (.num (.int .u8)) .nil))).decode (Input.new (B' ++ [x])) = (.ok (w, y, ()), i) →
      y = x.toBitVec := by
  constructor
  · intro h B B' v w x y i hB hB' hd
    have h1 := C140_struct_partial .nil (.cons (.num (.int .u8)) .nil) t h [] B B' [x] [] [] () v (x.toBitVec, ())
      (fun _ _ => rfl) hB hB' (octet_field_yields x _)
    have h2 := h1.symm.trans hd
    revert h2
    cases t.decode ⟨[] ++ [] ++ (B' ++ ([x] ++ [])), ([] ++ [] : List Byte).length⟩ with
    | mk r j =>
      cases r with
      | ok z => exact fun h2 => (congrArg (fun q => q.2.1) (Res.ok.inj (Prod.mk.inj h2).1)).symm
      | err e => exact fun h2 => nomatch (Prod.mk.inj h2).1
      | panic p => exact fun h2 => nomatch (Prod.mk.inj h2).1
      | ub u => exact fun h2 => nomatch (Prod.mk.inj h2).1
  · intro h
    have key : ∀ (a b : List Byte) (v w : t.Val), Yields t.decode a (.ok v) → Yields t.decode b (.ok w) →
        ¬ a.length < b.length := by
      intro a b v w ha hb hlt
      have hne : b.drop a.length ≠ [] := fun e => by
        have := congrArg List.length e
        rw [List.length_drop, List.length_nil] at this
        omega
      obtain ⟨p, pad, hp⟩ := List.exists_cons_of_ne_nil hne
      have h1 : Yields ((Ty.struct (.cons t (.cons (.num (.int .u8)) .nil))).decode) (a ++ [p])
          (.ok (v, p.toBitVec, ())) := (ha.mapErr _).bind ((octet_field_yields p _).map (Yields.pure _))
      have h2 := h1 [] (pad ++ [p + 1])
      have h3 := h b (a ++ p :: pad) w v (p + 1) p.toBitVec _ hb
        (by rw [← hp, List.length_append, List.length_drop]; omega)
        (by rw [show Input.new ((a ++ p :: pad) ++ [p + 1]) = ⟨[] ++ (a ++ [p] ++ (pad ++ [p + 1])), 0⟩ from by
          simp [Input.new]]; exact h2)
      have h4 : p = p + 1 := UInt8.toBitVec_inj.1 h3
      have h5 : p.toNat = (p.toNat + 1) % 256 := by
        have := congrArg UInt8.toNat h4
        simpa using this
      have := p.toNat_lt
      omega
    intro a b v w ha hb
    have h1 := key a b v w ha hb
    have h2 := key b a w v hb ha
    omega

/-- C140 (part). Types of fixed size are such. -/
theorem C140_fixed (t : Ty) (n : Nat) (h : fixedSize t = some n) : OneLength t := by
  intro a b v w ha hb
  have hs := fixed_sound t n h
  have key : ∀ (a : List Byte) (v : t.Val), Yields t.decode a (.ok v) → a.length = n := by
    intro a v ha
    obtain ⟨h1, h2⟩ := accepts_weighs t a v (yields_accepts hs.1 ha)
    have := h2.mpr (hs.2 v)
    have := (fixedSize_spec (fun _ => 0) t n h).1 v
    omega
  rw [key a v ha, key b w hb]

/-- C140 (part). If nothing but the encoding stands for a value, no change goes unnoticed: octets that have been
changed are not decoded as the same value. Missing: the other types, see `C54_exactly` for which these are. -/
theorem C140_noticed_partial (t : Ty) (ht : t.WF) (he : Exact true t) (B B' : List Byte) (v : t.Val)
    (hB : Yields t.decode B (.ok v)) (hB' : Yields t.decode B' (.ok v)) : B' = B := by
  have h := (exact_iff true t ht).mp he
  exact ((h B' v (yields_accepts ht hB')).trans (h B v (yields_accepts ht hB)).symm : B' = B)

/-- C140 is false of fields of no fixed size: with one octet of the vector changed, the field behind it is another
one, and there is no error. -/
theorem C140_false_length :
    (Ty.struct (.cons (.seq .vec (.num (.int .u8))) (.cons (.num (.int .u8)) .nil))).decode (Input.new [1, 0, 7, 9])
      = (.ok (([7#8] : List (BitVec 8)), 9#8, ()), ⟨[1, 0, 7, 9], 4⟩) ∧
    (Ty.struct (.cons (.seq .vec (.num (.int .u8))) (.cons (.num (.int .u8)) .nil))).decode (Input.new [0, 0, 7, 9])
      = (.ok (([] : List (BitVec 8)), 7#8, ()), ⟨[0, 0, 7, 9], 3⟩) :=
  ⟨rfl, rfl⟩

/-- C140 is false of `bool`, too: a change can go unnoticed. -/
theorem C140_false_noticed :
    Yields Ty.bool.decode [1] (.ok true) ∧ Yields Ty.bool.decode [2] (.ok true) :=
  ⟨(decU8_yields 1).map (Yields.pure _), (decU8_yields 2).map (Yields.pure _)⟩

/-- `struct S { a: u8, b: [u8; 2], c: u8 }` with the first octet of `b` changed. -/
example :
    (Ty.struct (.cons (.num (.int .u8)) (.cons (.array (.num (.int .u8)) 2) (.cons (.num (.int .u8)) .nil)))).decode
        (Input.new [1, 0xFF, 3, 4])
      = (.ok (1#8, ⟨[0xFF#8, 3#8], rfl⟩, 4#8, ()), ⟨[1, 0xFF, 3, 4], 4⟩) ∧
    OneLength (.array (.num (.int .u8)) 2) :=
  ⟨rfl, C140_fixed _ 2 rfl⟩
/-- A vector of `NonZeroU8`, with the second item changed to zero. -/
example :
    (Ty.seq .vec (.nonZero (.int .u8))).decode (Input.new [3, 0, 5, 0, 6])
      = (.err (.badItem (.item 1 .nonZero)), ⟨[3, 0, 5, 0, 6], 4⟩) ∧
    OneLength (.nonZero (.int .u8)) :=
  ⟨rfl, C140_fixed _ 1 rfl⟩
example : Exact true (.tuple (.cons (.num (.int .u16)) (.cons .char .nil))) :=
  fun _ => ⟨trivial, fun _ => ⟨trivial, trivial⟩⟩

end Oct.Props
