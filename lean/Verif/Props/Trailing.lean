import Verif.Proofs.Trailing
import Verif.Props.Decoding
import Verif.Props.Encoding
/-
C11 and C12: what is left of them with hash maps and sets.
-/
namespace Oct.Props
open Oct Spec

/-- C11. Values that end with a hash map or set, but have none elsewhere, are told apart by their
encodings too, though decoding does not read them back. Missing: hash maps and sets with something
after them (`C11_false_adjacent`) and of entries without octets (`C11_false_empty`). -/
theorem C11_trailing_partial (t : Ty) (ht : t.WF) (v w : t.Val) (hv : Trailing t v)
    (hw : Trailing t w) (o o' p p' : Output) (ho : o.position ≤ o.capacity)
    (hp : p.position ≤ p.capacity) (h1 : t.encode v o = (.ok (), o'))
    (h2 : t.encode w p = (.ok (), p'))
    (heq : o'.asSlice.drop o.position = p'.asSlice.drop p.position) :
    carried t v = carried t w := by
  have e1 := Ty.encode_ok t v ho h1
  have e2 := Ty.encode_ok t w hp h2
  rw [Ty.encode_ok_drop t v ho h1, Ty.encode_ok_drop t w hp h2] at heq
  exact Ty.wire_trail t ht v w hv hw e1.1 e2.1 heq

/-- `(7u8, {1, 3})`. -/
example : ∃ (v : (Ty.tuple (.cons (.num (.int .u8)) (.cons (.hashSet (.num (.int .u8))) .nil))).Val)
    (o' : Output), Trailing _ v ∧ Ty.encode _ v (Output.new [0, 0, 0]) = (.ok (), o') ∧
      o'.asSlice = [7, 1, 3] := by
  refine ⟨(7#8, ⟨[1#8, 3#8], by decide⟩, ()), ⟨[7, 1, 3], 3⟩, ?_, rfl, rfl⟩
  refine ⟨.inr trivial, .inl ⟨rfl, fun p _ => ⟨trivial, rfl, ?_⟩⟩, trivial⟩
  exact fun h => by cases congrArg List.length h

/-- Two encodable values with the same octets are encoded alike. -/
theorem alike (t : Ty) (v w : t.Val) (hv : Encodable t v) (hw : Encodable t w)
    (h : wire t v = wire t w) (o : Output) (ho : o.position ≤ o.capacity)
    (hroom : (wire t v).length ≤ o.remaining) :
    ∃ o', t.encode v o = (.ok (), o') ∧ t.encode w o = (.ok (), o') :=
  ⟨o.put (wire t v), ((Ty.encode_encodes t v).emits hv o ho).1 hroom,
    h ▸ ((Ty.encode_encodes t w).emits hw o ho).1 (h ▸ hroom)⟩

/-- C11 is false of two hash sets one after the other, whatever their keys are: with a key in the one
or in the other, they are encoded alike. -/
theorem C11_false_adjacent (k : Ty) (x : k.Val) (hx : Encodable k x) :
    ∃ v w : (Ty.tuple (.cons (.hashSet k) (.cons (.hashSet k) .nil))).Val, v ≠ w ∧
      ∀ o : Output, o.position ≤ o.capacity → (wire k x).length ≤ o.remaining →
        ∃ o', Ty.encode _ v o = (.ok (), o') ∧ Ty.encode _ w o = (.ok (), o') := by
  refine ⟨(⟨[x], by simp⟩, ⟨[], by simp⟩, ()), (⟨[], by simp⟩, ⟨[x], by simp⟩, ()), ?_, ?_⟩
  · intro h
    cases congrArg Subtype.val (Prod.mk.inj h).1
  · intro o ho hroom
    have he : ∀ y ∈ [x], Encodable k y := fun y hy => List.mem_singleton.mp hy ▸ hx
    refine alike (.tuple (.cons (.hashSet k) (.cons (.hashSet k) .nil)))
      (⟨[x], by simp⟩, ⟨[], by simp⟩, ()) (⟨[], by simp⟩, ⟨[x], by simp⟩, ())
      ⟨he, (fun y hy => nomatch hy), trivial⟩ ⟨(fun y hy => nomatch hy), he, trivial⟩ ?_ o ho ?_
    · show [x].flatMap (wire k) ++ ([].flatMap (wire k) ++ []) = [].flatMap (wire k) ++
        ([x].flatMap (wire k) ++ [])
      simp
    · show ([x].flatMap (wire k) ++ ([].flatMap (wire k) ++ [])).length ≤ _
      simpa using hroom

example : Encodable (.str .string) ⟨[], isUtf8_nil⟩ := by
  show 0 ≤ 65535
  decide

/-- C11 is false of hash sets of keys without octets: that of one key is encoded as the empty one. -/
theorem C11_false_empty (k : Ty) (x : k.Val) (hx : Encodable k x) (hn : wire k x = []) :
    ∃ v w : (Ty.hashSet k).Val, v ≠ w ∧ ∀ o : Output, o.position ≤ o.capacity →
      ∃ o', Ty.encode _ v o = (.ok (), o') ∧ Ty.encode _ w o = (.ok (), o') := by
  refine ⟨⟨[], by simp⟩, ⟨[x], by simp⟩, ?_, fun o ho => ?_⟩
  · intro h
    cases congrArg Subtype.val h
  · refine alike (.hashSet k) ⟨[], by simp⟩ ⟨[x], by simp⟩ (fun y hy => nomatch hy)
      (fun y hy => List.mem_singleton.mp hy ▸ hx) ?_ o ho (Nat.zero_le _)
    show [].flatMap (wire k) = [x].flatMap (wire k)
    simp [hn]

example : Encodable (.unit .unit) () ∧ wire (.unit .unit) () = [] := ⟨trivial, rfl⟩

/-- C12 is false of hash sets of whatever keys: the empty set is encoded as nothing, which is a prefix
of the octets of every other set. -/
theorem C12_false_any (k : Ty) (x : k.Val) (hx : Encodable k x) :
    ∃ v w : (Ty.hashSet k).Val, v ≠ w ∧ ∀ o : Output, o.position ≤ o.capacity →
      (wire k x).length ≤ o.remaining → Ty.encode _ v o = (.ok (), o) ∧
        ∃ o', Ty.encode _ w o = (.ok (), o') ∧ o'.asSlice = o.asSlice ++ wire k x := by
  refine ⟨⟨[], by simp⟩, ⟨[x], by simp⟩, ?_, fun o ho hroom => ⟨rfl, ?_⟩⟩
  · intro h
    cases congrArg Subtype.val h
  · have hw : wire (.hashSet k) ⟨[x], by simp⟩ = wire k x := by
      show [x].flatMap (wire k) = _
      simp
    obtain ⟨o', h1, _, _, h2, _⟩ := C03_encode_exact (.hashSet k) ⟨[x], by simp⟩
      (fun y hy => List.mem_singleton.mp hy ▸ hx) o ho (hw ▸ hroom)
    exact ⟨o', h1, hw ▸ h2⟩

example : Encodable .bool true ∧ (wire .bool true).length ≤ (Output.new [0]).remaining :=
  ⟨trivial, by decide⟩

end Oct.Props
