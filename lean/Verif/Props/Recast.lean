import Verif.Proofs.Recast
import Verif.Proofs.RecastRead
import Verif.Proofs.EncodesTo
import Verif.Props.Decoding
/-
C135: types in the place of other types of the same format.
-/
namespace Oct.Props
open Oct Spec
set_option linter.unusedVariables false

/-- C135. Whenever a value of the old type is encoded, the value of the new type that it becomes is
encoded in the same stream with the same effect. -/
theorem C135_encode (x : Bool) (t u : Ty) (f : t.Val → u.Val) (h : Recast x t u f) (v : t.Val)
    (o o' : Output) (he : t.encode v o = (.ok (), o')) : u.encode (f v) o = (.ok (), o') :=
  Oct.Recast.fits h v o o' he

/-- C135. The octets are the same. -/
theorem C135_octets (x : Bool) (t u : Ty) (f : t.Val → u.Val) (h : Recast x t u f) (v : t.Val)
    (bs : List Byte) (he : EncodesTo t v bs) : EncodesTo u (f v) bs := by
  intro o ho hl
  obtain ⟨o', h1, h2⟩ := he o ho hl
  exact ⟨o', Oct.Recast.fits h v o o' h1, h2⟩

/-- C135, in part: what the old program has written, the new one reads as the value it becomes, taking
exactly the encoding, if the new type's value survives its own round trip. -/
theorem C135_received_partial (x : Bool) (t u : Ty) (f : t.Val → u.Val) (h : Recast x t u f) (v : t.Val)
    (hu : u.WF) (hs : Supported u (f v)) (o o' : Output) (ho : o.position ≤ o.capacity)
    (he : t.encode v o = (.ok (), o')) (rest : List Byte) :
    u.decode ⟨o'.asSlice ++ rest, o.position⟩
      = (.ok (carried u (f v)), ⟨o'.asSlice ++ rest, o'.position⟩) :=
  C09_round_trip_partial u hu (f v) hs o o' ho (Oct.Recast.fits h v o o' he) rest

/-- C135, in part: where both types read the same of what is not an encoding, whatever the old program
reads of any octets, the new one reads as the value it becomes, up to the same place. -/
theorem C135_reads_partial (t u : Ty) (f : t.Val → u.Val) (h : Recast true t u f) (i j : Input) (v : t.Val)
    (hd : t.decode i = (.ok v, j)) : u.decode i = (.ok (f v), j) := by
  have := Oct.Recast.takes h rfl i
  rw [hd] at this
  exact this

/-- C135: so the new program need not know which values survive the round trip as the new type. -/
theorem C135_received_alike (t u : Ty) (f : t.Val → u.Val) (h : Recast true t u f) (v : t.Val)
    (ht : t.WF) (hs : Supported t v) (o o' : Output) (ho : o.position ≤ o.capacity)
    (he : t.encode v o = (.ok (), o')) (rest : List Byte) :
    u.decode ⟨o'.asSlice ++ rest, o.position⟩
      = (.ok (f (carried t v)), ⟨o'.asSlice ++ rest, o'.position⟩) :=
  C135_reads_partial t u f h _ _ _ (C09_round_trip_partial t ht v hs o o' ho he rest)

/-- C135, in part: whatever the new program reads, the old one reads as a value that becomes the same, up
to the same place, or it reports an error: it takes nothing for something else, and does not panic. -/
theorem C135_never_misread_partial (t u : Ty) (f : t.Val → u.Val) (h : Recast true t u f) (i j : Input)
    (w : u.Val) (hw : u.decode i = (.ok w, j)) :
    (∃ v, f v = w ∧ t.decode i = (.ok v, j)) ∨ ∃ e j', t.decode i = (.err e, j') := by
  have := Oct.Recast.takes h rfl i
  cases hd : t.decode i with
  | mk r k =>
    rw [hd] at this
    cases r with
    | ok v =>
      simp only at this
      rw [hw] at this
      have h1 := Prod.mk.inj this
      exact .inl ⟨v, (Res.ok.inj h1.1).symm, by rw [h1.2]⟩
    | err e => exact .inr ⟨e, k, rfl⟩
    | panic p =>
      obtain ⟨p, k, h1⟩ := this
      rw [hw] at h1
      exact nomatch (Prod.mk.inj h1).1
    | ub p =>
      obtain ⟨p, k, h1⟩ := this
      rw [hw] at h1
      exact nomatch (Prod.mk.inj h1).1

/-- C135: what the new program refuses with an error, the old one does not read, and refuses with an
error, too; and the old program panics only where the new one does. -/
theorem C135_refused (t u : Ty) (f : t.Val → u.Val) (h : Recast true t u f) (i j : Input) :
    (∀ e, u.decode i = (.err e, j) → ∃ e' j', t.decode i = (.err e', j')) ∧
    (∀ p, t.decode i = (.panic p, j) → ∃ p' j', u.decode i = (.panic p', j')) ∧
    (∀ x, t.decode i = (.ub x, j) → ∃ x' j', u.decode i = (.ub x', j')) := by
  have := Oct.Recast.takes h rfl i
  refine ⟨?_, ?_, ?_⟩
  · intro e he
    cases hd : t.decode i with
    | mk r k =>
      rw [hd] at this
      cases r with
      | ok v =>
        simp only at this
        rw [he] at this
        exact nomatch (Prod.mk.inj this).1
      | err e => exact ⟨e, k, rfl⟩
      | panic p =>
        obtain ⟨p, k, h1⟩ := this
        rw [he] at h1
        exact nomatch (Prod.mk.inj h1).1
      | ub p =>
        obtain ⟨p, k, h1⟩ := this
        rw [he] at h1
        exact nomatch (Prod.mk.inj h1).1
  · intro p hd
    rw [hd] at this
    exact this
  · intro p hd
    rw [hd] at this
    exact this

/-- `struct Entry { key: Key, kind: Kind, owner: Ipv4Addr }` with `struct Key { name: SizedStr<4>, id:
NonZeroU8 }` and `enum Kind { A, B(u8), C(bool) }`. -/
abbrev entryOld : Ty :=
  .struct (.cons (.struct (.cons (.sizedStr 4) (.cons (.nonZero (.int .u8)) .nil)))
    (.cons (.enum (.int .u8) (.cons none .nil (.cons none (.cons (.num (.int .u8)) .nil)
      (.cons none (.cons .bool .nil) .nil)))) (.cons .ipv4 .nil)))

/-- `struct Entry { name: String, id: u8, kind: Box<Kind>, owner: u32 }` with `enum Kind { C(bool) = 2,
New(String) = 7, B(i8) = 1, A = 0 }`. -/
abbrev entryNew : Ty :=
  .struct (.cons (.str .string) (.cons (.num (.int .u8))
    (.cons (.wrap .box (.enum (.int .u8) (.cons (some 2) (.cons .bool .nil)
      (.cons (some 7) (.cons (.str .string) .nil) (.cons (some 1) (.cons (.num (.int .i8)) .nil)
        (.cons (some 0) .nil .nil))))))
      (.cons (.num (.int .u32)) .nil))))

/-- C135: the entries may be exchanged anywhere, such as in a vector. -/
theorem C135_entries : ∃ f, Recast true (.seq .vec entryOld) (.seq .linkedList entryNew) f := by
  have kinds : ∃ f, Recast true
      (.enum (.int .u8) (.cons none .nil (.cons none (.cons (.num (.int .u8)) .nil)
        (.cons none (.cons .bool .nil) .nil))))
      (.enum (.int .u8) (.cons (some 2) (.cons .bool .nil)
        (.cons (some 7) (.cons (.str .string) .nil) (.cons (some 1) (.cons (.num (.int .i8)) .nil)
          (.cons (some 0) .nil .nil))))) f :=
    ⟨_, .enum _ (.cons none none (.nil _)
      (.there _ _ _ (by decide) (.there _ _ _ (by decide) (.there _ _ _ (by decide) (.here _ _ _ _))))
      (.cons none _ (.cons (.width _ (.int .u8) (.int .i8) rfl) (.nil _))
        (.there _ _ _ (by decide) (.there _ _ _ (by decide) (.here _ _ _ _)))
        (.cons none _ (.cons (.same _ _) (.nil _)) (.here _ _ _ _) (.nil _ _ _ Empty.elim))))⟩
  obtain ⟨k, hk⟩ := kinds
  exact ⟨_, .trans (.seqKind _ _ .linkedList _) (.seq _ (.trans
    (.struct (.dissolve _ (.cons (.trans hk (.rewrap _ .box _)) (.cons (.ipv4Num _) (.nil _)))))
    (.struct (.cons (.unsized _ _ _) (.cons (.zeroed _ _) (.cons (.same _ _) (.cons (.same _ _)
      (.nil _))))))))⟩

/-- C135, an entry: both programs read it, and the old one refuses the new variant. -/
example :
    entryOld.decode (Input.new [2, 0, 0x68, 0x69, 3, 1, 9, 1, 0, 0, 127])
      = (.ok ((⟨[0x68, 0x69], by decide, by decide⟩, ⟨3, by decide, by decide⟩, ()),
        .inr (.inl (9#8, ())), ⟨[127, 0, 0, 1], rfl⟩, ()), ⟨[2, 0, 0x68, 0x69, 3, 1, 9, 1, 0, 0, 127], 11⟩) ∧
    entryNew.decode (Input.new [2, 0, 0x68, 0x69, 3, 1, 9, 1, 0, 0, 127])
      = (.ok (⟨[0x68, 0x69], by decide⟩, 3#8, .inr (.inr (.inl (9#8, ()))), 0x7F000001#32, ()),
        ⟨[2, 0, 0x68, 0x69, 3, 1, 9, 1, 0, 0, 127], 11⟩) ∧
    entryOld.decode (Input.new [0, 0, 3, 7, 0, 0, 0, 0, 0, 0])
      = (.err (DecErr.toGeneric (.unassigned 7)), ⟨[0, 0, 3, 7, 0, 0, 0, 0, 0, 0], 4⟩) :=
  ⟨rfl, rfl, rfl⟩

/-- C135 fails for octets that are not an encoding, of which the old type reads more than the new one:
the places up to which they are read differ for a sized slice that is not full. -/
theorem C135_reads_false_sized_slice : ∃ f, Recast false (.sizedSlice (.num (.int .u8)) 2)
    (.seq .vec (.num (.int .u8))) f ∧
    (Ty.sizedSlice (.num (.int .u8)) 2).decode (Input.new [1, 0, 5, 6])
      = (.ok ⟨[5#8], by decide⟩, ⟨[1, 0, 5, 6], 4⟩) ∧
    (Ty.seq .vec (.num (.int .u8))).decode (Input.new [1, 0, 5, 6]) = (.ok [5#8], ⟨[1, 0, 5, 6], 3⟩) :=
  ⟨_, .grown _ _ _, rfl, rfl⟩

/-- C135 fails likewise for `bool`, as which the octet two is read as `true`; so a new enumeration in the
place of an `Option` or a `Result` refuses what the old program reads. -/
theorem C135_reads_false_bool :
    (∃ f, Recast false .bool (.num (.int .u8)) f ∧ f true = 1#8) ∧
    Ty.bool.decode (Input.new [2]) = (.ok true, ⟨[2], 1⟩) ∧
    (Ty.num (.int .u8)).decode (Input.new [2]) = (.ok 2#8, ⟨[2], 1⟩) ∧
    (Ty.option .bool).decode (Input.new [2, 0]) = (.ok (some false), ⟨[2, 0], 2⟩) ∧
    (optionEnum .bool).decode (Input.new [2, 0]) = (.err (.unassigned 2), ⟨[2, 0], 1⟩) ∧
    (Ty.result .bool .bool).decode (Input.new [2, 0]) = (.ok (.err false), ⟨[2, 0], 2⟩) ∧
    (resultEnum .bool .bool).decode (Input.new [2, 0]) = (.err (.unassigned 2), ⟨[2, 0], 1⟩) :=
  ⟨⟨_, .boolNum, rfl⟩, rfl, rfl, rfl, rfl, rfl, rfl⟩

/-- C135 fails for `Duration`: nanoseconds of a second or more are read as seconds. -/
theorem C135_reads_false_duration :
    ∃ v, Ty.duration.decode (Input.new [0, 0, 0, 0, 0, 0, 0, 0, 0, 0xCA, 0x9A, 0x3B])
      = (.ok v, ⟨[0, 0, 0, 0, 0, 0, 0, 0, 0, 0xCA, 0x9A, 0x3B], 12⟩) ∧ v.secs = 1#64 ∧
    ∃ w, (Ty.struct (.cons (.num (.int .u64)) (.cons (.num (.int .u32)) .nil))).decode
      (Input.new [0, 0, 0, 0, 0, 0, 0, 0, 0, 0xCA, 0x9A, 0x3B])
      = (.ok w, ⟨[0, 0, 0, 0, 0, 0, 0, 0, 0, 0xCA, 0x9A, 0x3B], 12⟩) ∧ w.1 = 0#64 :=
  ⟨_, rfl, rfl, _, rfl, rfl⟩

/-- C135 fails for `char`: what the new program reads as a number, the old one neither reads nor refuses,
as its behaviour is undefined. -/
theorem C135_misread_false_char : (∃ f, Recast false .char (.num (.int .u32)) f) ∧
    (Ty.num (.int .u32)).decode (Input.new [0, 0xDE, 0, 0]) = (.ok 0xDE00#32, ⟨[0, 0xDE, 0, 0], 4⟩) ∧
    ∃ u, Ty.char.decode (Input.new [0, 0xDE, 0, 0]) = (.ub u, ⟨[0, 0xDE, 0, 0], 4⟩) :=
  ⟨⟨_, .charNum⟩, rfl, _, rfl⟩

/-- C135: the new type may read what the old one refuses, and its values are encoded where
the old ones are not, such as that of a cell that is mutably borrowed; so it does not hold the other way
round. -/
theorem C135_not_back :
    (∃ f, Recast true (.sizedStr 1) (.str .string) f) ∧
    (∃ v j, (Ty.str .string).decode (Input.new [2, 0, 0x68, 0x69]) = (.ok v, j)) ∧
    (∃ e j, (Ty.sizedStr 1).decode (Input.new [2, 0, 0x68, 0x69]) = (.err e, j)) ∧
    (∃ f, Recast true (.refCell .bool) .bool f ∧ f ⟨true, false⟩ = false) ∧
    (∃ e j, (Ty.refCell .bool).encode ⟨true, false⟩ (Output.new [7]) = (.err e, j)) ∧
    Ty.bool.encode false (Output.new [7]) = (.ok (), ⟨[0], 1⟩) :=
  ⟨⟨_, .unsized _ _ _⟩, ⟨_, _, rfl⟩, ⟨_, _, rfl⟩, ⟨_, .unborrow _ _, rfl⟩, ⟨_, _, rfl⟩, rfl⟩

/-- C135: the keys of a hash map are exchanged, which need to stay different. -/
example : ∃ f, Recast true (.hashMap (.sizedStr 4) .bool) (.hashMap (.str .string) (.wrap .box .bool)) f :=
  ⟨_, .hashMap (k := .sizedStr 4) (l := .str .string) (f := fun v => ⟨v.1, v.2.1⟩)
    (fun a b h => Subtype.ext (Subtype.mk.inj h)) (.unsized _ _ _) (.rewrap _ _ _)⟩

/-- The hypotheses of `C135_encode`, `C135_octets`, and the theorems on what is received. -/
example : (Ty.sizedStr 4).encode ⟨[0x68, 0x69], by decide, by decide⟩ (Output.new [0, 0, 0, 0])
      = (.ok (), ⟨[2, 0, 0x68, 0x69], 4⟩) ∧
    (Ty.str .string).decode ⟨[2, 0, 0x68, 0x69] ++ [9], 0⟩
      = (.ok ⟨[0x68, 0x69], by decide⟩, ⟨[2, 0, 0x68, 0x69] ++ [9], 4⟩) ∧
    (Ty.str .string).WF ∧ Supported (.str .string) ⟨[0x68, 0x69], by decide⟩ ∧
    (Ty.sizedStr 4).WF ∧ Supported (.sizedStr 4) ⟨[0x68, 0x69], by decide, by decide⟩ :=
  ⟨rfl, rfl, trivial, trivial, trivial, trivial⟩

end Oct.Props
