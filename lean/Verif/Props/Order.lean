import Verif.Proofs.Order
import Verif.Proofs.EncodesTo
import Verif.Props.Maps
/-
C132: the order in which hash maps and hash sets iterate.
-/
namespace Oct.Props
open Oct Spec
set_option linter.unusedVariables false

/-- Puts entries in reverse after each insertion, in streams with an even number of octets left. -/
def zigzag : Order where
  entries i l := if i.remaining % 2 = 0 then l.reverse else l
  perm i l := by
    split
    · exact List.reverse_perm l
    · exact .refl l

/-- Leaves entries as they are: new ones last. -/
def newLast : Order where
  entries _ l := l
  perm _ l := .refl l

/-- `Vec<HashSet<u8>>`. -/
abbrev sets : Ty := .seq .vec (.hashSet (.num (.int .u8)))

/-- A hash set of octets. -/
abbrev octetSet (l : List (BitVec 8)) (h : l.Nodup) : (Ty.hashSet (.num (.int .u8))).Val := ⟨l, h⟩

/-- C132. Whatever the order of entries is after each insertion: from the same stream, decoding ends the
same way, with the same error or panic if there is one, and takes as many octets; and what it gives is the
same value, up to the order of entries. -/
theorem C132_decode (o o' : Order) (t : Ty) (h : Everywhere HashableKeys t) (i : Input) :
    (t.decodeBy o i).2 = (t.decodeBy o' i).2 ∧
    (∀ v, (t.decodeBy o i).1 = .ok v → ∃ w, (t.decodeBy o' i).1 = .ok w ∧ Akin t v w) ∧
    (∀ e, (t.decodeBy o i).1 = .err e ↔ (t.decodeBy o' i).1 = .err e) ∧
    (∀ p, (t.decodeBy o i).1 = .panic p ↔ (t.decodeBy o' i).1 = .panic p) ∧
    (∀ u, (t.decodeBy o i).1 = .ub u ↔ (t.decodeBy o' i).1 = .ub u) := by
  obtain ⟨h1, h2⟩ := t.decodeBy_akin₂ o o' h i
  refine ⟨h1.symm, ?_⟩
  generalize (t.decodeBy o i).1 = r at h2 ⊢
  generalize (t.decodeBy o' i).1 = r' at h2 ⊢
  cases r <;> cases r' <;> try exact h2.elim
  · exact ⟨fun v hv => by cases hv; exact ⟨_, rfl, h2⟩, fun _ => ⟨nofun, nofun⟩, fun _ => ⟨nofun, nofun⟩,
      fun _ => ⟨nofun, nofun⟩⟩
  all_goals
    cases h2
    exact ⟨nofun, fun _ => Iff.rfl, fun _ => Iff.rfl, fun _ => Iff.rfl⟩

/-- The orders do differ: the same octets, decoded as sets of octets in two orders. -/
example : Everywhere HashableKeys sets ∧
    ((sets.decodeBy zigzag (Input.new [1, 0, 3, 0, 10, 20, 30])).1 =
      .ok [octetSet [30, 20, 10] (by decide)]) ∧
    ((sets.decodeBy newLast (Input.new [1, 0, 3, 0, 10, 20, 30])).1 =
      .ok [octetSet [10, 20, 30] (by decide)]) :=
  ⟨⟨trivial, trivial, trivial⟩, by decide +kernel, by decide +kernel⟩

/-- C132. What is proved of the decoder that puts new entries last (Model/Decode) holds of one with any other
order. -/
theorem C132_model (o : Order) (t : Ty) (h : Everywhere HashableKeys t) (i : Input) :
    (t.decode i).2 = (t.decodeBy o i).2 ∧
    (∀ v, (t.decode i).1 = .ok v → ∃ w, (t.decodeBy o i).1 = .ok w ∧ Akin t v w) ∧
    (∀ w, (t.decodeBy o i).1 = .ok w → ∃ v, (t.decode i).1 = .ok v ∧ Akin t v w) ∧
    (∀ e, (t.decode i).1 = .err e ↔ (t.decodeBy o i).1 = .err e) ∧
    (∀ p, (t.decode i).1 = .panic p ↔ (t.decodeBy o i).1 = .panic p) ∧
    (∀ u, (t.decode i).1 = .ub u ↔ (t.decodeBy o i).1 = .ub u) := by
  obtain ⟨h1, h2⟩ := t.decodeBy_akin o h i
  refine ⟨h1.symm, ?_⟩
  generalize (t.decode i).1 = r at h2 ⊢
  generalize (t.decodeBy o i).1 = r' at h2 ⊢
  cases r <;> cases r' <;> try exact h2.elim
  · exact ⟨fun v hv => by cases hv; exact ⟨_, rfl, h2⟩, fun w hw => by cases hw; exact ⟨_, rfl, h2⟩,
      fun _ => ⟨nofun, nofun⟩, fun _ => ⟨nofun, nofun⟩, fun _ => ⟨nofun, nofun⟩⟩
  all_goals
    cases h2
    exact ⟨nofun, nofun, fun _ => Iff.rfl, fun _ => Iff.rfl, fun _ => Iff.rfl⟩

/-- Also if there is something wrong: the second set ends early. -/
example : (sets.decodeBy zigzag (Input.new [2, 0, 1, 0, 7, 3, 0, 10, 20])).1 = .panic .shortInput ∧
    (sets.decode (Input.new [2, 0, 1, 0, 7, 3, 0, 10, 20])).1 = .panic .shortInput :=
  ⟨by decide +kernel, by decide +kernel⟩

/-- C132. Without hash maps and hash sets, the order makes no difference at all; and "the same value up to the
order of entries" is the same value. -/
theorem C132_ordered (o : Order) (t : Ty) (h : Ordered t) (hk : Everywhere HashableKeys t) :
    t.decodeBy o = t.decode ∧ ∀ v w, Akin t v w ↔ v = w := by
  refine ⟨funext fun i => ?_, t.akin_iff h⟩
  obtain ⟨h1, h2⟩ := t.decodeBy_akin o hk i
  refine Prod.ext ?_ h1
  generalize (t.decode i).1 = r at h2 ⊢
  generalize (t.decodeBy o i).1 = r' at h2 ⊢
  cases r <;> cases r' <;> try exact h2.elim
  · exact congrArg _ ((t.akin_iff h _ _).mp h2).symm
  all_goals
    cases h2
    rfl

example : Ordered (.seq .vec (.num (.int .u8))) ∧ ¬ Ordered sets :=
  ⟨⟨trivial, trivial⟩, fun h => h.2.1⟩

/-- C132. "The same value up to the order of entries" is an equivalence, and for maps and sets it is what it
says: the entries of one are a permutation of those of the other (with equal keys, and values that are again the
same up to order). -/
theorem C132_akin (t : Ty) :
    (∀ v, Akin t v v) ∧ (∀ v w, Akin t v w → Akin t w v) ∧
    (∀ v w x, Akin t v w → Akin t w x → Akin t v x) :=
  ⟨t.akin_refl, t.akin_symm, t.akin_trans⟩

/-- See `C132_akin`. -/
theorem C132_akin_set (k : Ty) (s s' : (Ty.hashSet k).Val) :
    Akin (.hashSet k) s s' ↔ s.val.Perm s'.val :=
  ⟨perm_of_mem_iff s.val s'.val s.property s'.property, fun h x => h.mem_iff⟩

/-- See `C132_akin`. -/
theorem C132_akin_map (k v : Ty) (m m' : (Ty.hashMap k v).Val) :
    Akin (.hashMap k v) m m' ↔
      ∃ l, l.Perm m'.val ∧ Pointwise (fun p q => p.1 = q.1 ∧ Akin v p.2 q.2) m.val l := by
  constructor
  · exact SameEntries.exists_perm m.val m'.val m.property m'.property
  · rintro ⟨l, hp, hl⟩
    refine sameEntries_perm ?_ hp.symm
    clear hp
    generalize m.val = m at hl ⊢
    induction m generalizing l with
    | nil =>
      match l, hl with
      | [], _ => exact sameEntries_nil
    | cons p m ih =>
      obtain ⟨x, a⟩ := p
      match l, hl with
      | (y, b) :: l, ⟨⟨hk, hv⟩, hl⟩ =>
        dsimp only at hk hv
        subst hk
        obtain ⟨h1, h2⟩ := ih l hl
        constructor
        · intro k c hc
          rcases List.mem_cons.mp hc with h | h
          · cases h
            exact ⟨b, List.mem_cons_self, hv⟩
          · obtain ⟨d, hd, hr⟩ := h1 k c h
            exact ⟨d, List.mem_cons_of_mem _ hd, hr⟩
        · intro k c hc
          rcases List.mem_cons.mp hc with h | h
          · cases h
            exact ⟨a, List.mem_cons_self, hv⟩
          · obtain ⟨d, hd, hr⟩ := h2 k c h
            exact ⟨d, List.mem_cons_of_mem _ hd, hr⟩

example : Akin (.hashSet (.num (.int .u8))) (octetSet [10, 20, 30] (by decide)) (octetSet [30, 10, 20] (by decide)) :=
  (C132_akin_set _ _ _).mpr (by decide +kernel)

/-- C132. Of values that are the same up to the order of entries, one can be encoded if the other can be, in
the same streams; the encodings are equally long, and consist of the same octets. -/
theorem C132_encode (t : Ty) (v w : t.Val) (h : Akin t v w) (bs : List Byte) (he : EncodesTo t v bs) :
    ∃ bs', EncodesTo t w bs' ∧ bs'.Perm bs ∧ bs'.length = bs.length := by
  obtain ⟨h1, rfl⟩ := encodesTo_iff.mp he
  obtain ⟨h2, h3⟩ := t.akin_wire v w h
  exact ⟨wire t w, encodesTo_iff.mpr ⟨h2.mp h1, rfl⟩, h3.symm, h3.symm.length_eq⟩

/-- C132. The encodings themselves do depend on the order: the same set is encoded in two ways. -/
theorem C132_encodings_differ : ¬ ∀ (t : Ty) (v w : t.Val) (bs : List Byte), Akin t v w → EncodesTo t v bs →
    EncodesTo t w bs := by
  intro h
  have h1 := h (.hashSet (.num (.int .u8))) (octetSet [1, 2] (by decide)) (octetSet [2, 1] (by decide)) [1, 2]
    ((C132_akin_set _ _ _).mpr (by decide +kernel))
    (encodesTo_iff.mpr ⟨fun _ _ => trivial, by decide +kernel⟩)
  exact absurd (encodesTo_iff.mp h1).2 (by decide +kernel)

example : EncodesTo (.hashSet (.num (.int .u8))) (octetSet [2, 1] (by decide)) [2, 1] :=
  encodesTo_iff.mpr ⟨fun _ _ => trivial, by decide +kernel⟩

/-- C132. The number of entries and the entries, in any order that one map has them in, are decoded as the same
map by a program whose maps have another order. (Encoding writes the entries without their number: C40.) -/
theorem C132_entries (o : Order) (k v : Ty) (hk : Everywhere HashableKeys (.hashMap k v))
    (m m' : (Ty.hashMap k v).Val) (hm : m'.val.Perm m.val) (wk : k.Val → List Byte)
    (wv : v.Val → List Byte) (hl : m.val.length ≤ 65535)
    (hd : ∀ p ∈ m.val, Yields k.decode (wk p.1) (.ok p.1) ∧ Yields v.decode (wv p.2) (.ok p.2))
    (w pre rest : List Byte)
    (hw : w = leBytes 2 m'.val.length ++ m'.val.flatMap fun p => wk p.1 ++ wv p.2) :
    ∃ m'', (Ty.hashMap k v).decodeBy o ⟨pre ++ (w ++ rest), pre.length⟩ =
      (.ok m'', ⟨pre ++ (w ++ rest), pre.length + w.length⟩) ∧ Akin (.hashMap k v) m m'' := by
  have hy : Yields (Ty.hashMap k v).decode w (.ok m') := hw ▸
    (decUsize_yields m'.val.length (hm.length_eq ▸ hl)).bind
      (decMapLoop_yields wk wv m'.val 0 ⟨[], List.nodup_nil⟩ m'.property
        fun p hp => hd p (hm.mem_iff.mp hp))
  obtain ⟨h1, h2, -⟩ := C132_model o _ hk ⟨pre ++ (w ++ rest), pre.length⟩
  rw [hy pre rest] at h1 h2
  obtain ⟨m'', h3, h4⟩ := h2 m' rfl
  refine ⟨m'', Prod.ext h3 h1.symm, Ty.akin_trans (.hashMap k v) m m' m'' ?_ h4⟩
  exact sameEntries_perm (Ty.akin_refl (.hashMap k v) m) hm

/-- A map of two entries, as another map has them, decoded with yet another order. -/
example : ((Ty.hashMap (.num (.int .u8)) .bool).decodeBy zigzag (Input.new [2, 0, 9, 1, 7, 0])).1 =
    .ok (show MapVal (BitVec 8) Bool from ⟨[(7, false), (9, true)], by decide⟩) := by decide +kernel

/-- C132. `==` does not tell values apart that are the same up to the order of entries. -/
theorem C132_equals (t : Ty) (v v' w w' : t.Val) (hv : Akin t v v') (hw : Akin t w w') :
    t.equals v w = t.equals v' w' := t.equals_akin v v' w w' hv hw

example : (Ty.hashSet (.num (.int .u8))).equals (octetSet [1, 2] (by decide)) (octetSet [2, 1] (by decide)) = true := by
  decide +kernel

end Oct.Props
