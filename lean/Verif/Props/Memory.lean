import Verif.Proofs.SlotMemory
import Verif.Props.Samples
import Verif.Props.Decoding
/-
C77-C79: streams and slots in memory. The unsafe operations are within bounds and on initialised
memory that does not overlap, and what the models of streams and slots as values say is so in memory.
-/
namespace Oct.Props
open Oct Spec
set_option linter.unusedVariables false

/-- C77, one write: with data that is apart from the buffer (as Rust's references guarantee), a write
in memory is that of the list model. It is never undefined, and nothing but the octets from the
position on is different afterwards; if it fails, nothing is. -/
theorem C77_write (m : Mem Byte) (o : RawOutput) (O : Output) (h : ShowsOutput m o O) (data : RawSlice)
    (d : List Byte) (hd : Holds m data d) (ha : Mem.Apart o.buf.ptr o.buf.len data.ptr data.len) :
    (∀ e O1, O.write d = (.error e, O1) → O1 = O ∧ o.write data m = (.err e, o, m)) ∧
    ∀ O1, O.write d = (.ok (), O1) → ∃ m', o.write data m = (.ok (), ⟨o.buf, o.pos + data.len⟩, m') ∧
      ShowsOutput m' ⟨o.buf, o.pos + data.len⟩ O1 ∧
      OnlyIn ⟨o.buf.ptr.alloc, o.buf.ptr.off + o.pos⟩ data.len m m' :=
  RawOutput.write_shows h hd ha

/-- Memory for the samples: an allocation of four octets, and one of two. -/
def sampleMem : Mem Byte
  | 0 => some [some 1, some 2, some 3, some 4]
  | 1 => some [some 8, some 9]
  | _ => none

example : ShowsOutput sampleMem ⟨⟨⟨0, 0⟩, 4⟩, 1⟩ ⟨[1, 2, 3, 4], 1⟩ ∧
    Holds sampleMem ⟨⟨1, 0⟩, 2⟩ [8, 9] ∧
    Mem.Apart (⟨0, 0⟩ : Ptr) 4 ⟨1, 0⟩ 2 ∧
    ((⟨⟨⟨0, 0⟩, 4⟩, 1⟩ : RawOutput).write ⟨⟨1, 0⟩, 2⟩ sampleMem).2.2 0
      = some [some 1, some 8, some 9, some 4] :=
  ⟨⟨⟨rfl, rfl⟩, rfl, by decide⟩, ⟨rfl, rfl⟩, by decide, rfl⟩

/-- The condition on the data is needed: writing part of the buffer to itself is undefined. -/
example : ((⟨⟨⟨0, 0⟩, 4⟩, 1⟩ : RawOutput).write ⟨⟨0, 0⟩, 2⟩ sampleMem).1 = .ub .overlap := rfl

/-- C77, `as_slice` and `remaining`. -/
theorem C77_views (m : Mem Byte) (o : RawOutput) (O : Output) (h : ShowsOutput m o O) :
    o.asSlice m = .ok O.asSlice ∧ o.remaining = .ok O.remaining := by
  obtain ⟨⟨h1, h2⟩, h3, h4⟩ := h
  constructor
  · have := Mem.load_sub h2 0 o.pos (by omega)
    rw [List.drop_zero, ← List.map_take, h3] at this
    unfold RawOutput.asSlice Output.asSlice
    rw [h3]
    exact Mem.values_of_load this
  · unfold RawOutput.remaining
    rw [if_neg (by omega), h1, h3]
    rfl

example : (⟨⟨⟨0, 0⟩, 4⟩, 1⟩ : RawOutput).asSlice sampleMem = .ok [1] ∧
    (⟨⟨⟨0, 0⟩, 4⟩, 1⟩ : RawOutput).remaining = .ok 3 := ⟨rfl, rfl⟩

/-- C77. Every encoder is a program of writes of local arrays, and wherever the allocator and the
stack put these, running the program in memory has the result that `encode` has in the list model and
leaves the stream that it leaves; nothing but the octets between the two positions is different
afterwards. There is such a run, if there is memory for a local array at all. -/
theorem C77_encode (t : Ty) (v : t.Val) :
    (∃ p : EncProg, ∀ O, p.run O = t.encode v O) ∧
    ∀ p : EncProg, (∀ O, p.run O = t.encode v O) → ∀ m o O, ShowsOutput m o O →
      ((∃ a, m a = none) → ∃ r o' m', EncProg.Raw p o m r o' m') ∧
      ∀ r o' m', EncProg.Raw p o m r o' m' →
        r = (t.encode v O).1 ∧ ShowsOutput m' o' (t.encode v O).2 ∧ o'.buf = o.buf ∧ o.pos ≤ o'.pos ∧
        OnlyIn ⟨o.buf.ptr.alloc, o.buf.ptr.off + o.pos⟩ (o'.pos - o.pos) m m' := by
  refine ⟨t.encode_isProg v, fun p hp m o O h => ⟨fun ha => p.raw_total h ha, fun r o' m' hr => ?_⟩⟩
  have := hr.shows h
  rwa [hp] at this

/-- C77. Encoding in memory is never undefined. -/
theorem C77_never_undefined (t : Ty) (v : t.Val) (p : EncProg) (hp : ∀ O, p.run O = t.encode v O)
    (m : Mem Byte) (o : RawOutput) (O : Output) (h : ShowsOutput m o O) (r : Res EncErr Unit)
    (o' : RawOutput) (m' : Mem Byte) (hr : EncProg.Raw p o m r o' m') (u : Ub) : r ≠ .ub u := by
  rw [(((C77_encode t v).2 p hp m o O h).2 r o' m' hr).1]
  obtain ⟨w, r0, he, hq⟩ := Ty.encode_quiet (Pn := fun _ => True) t v (.inl trivial)
  by_cases hl : w.length ≤ O.remaining
  · rw [(he O h.2.2).1 hl]
    intro e
    rw [show r0 = .ub u from e] at hq
    exact hq
  · obtain ⟨w', _, _, h1⟩ := (he O h.2.2).2 (by omega)
    rw [h1]
    exact fun e => nomatch e

example : ∃ p : EncProg, (∀ O, p.run O = Ty.usize.encode (5 : Nat) O) ∧
    ∃ o' m', EncProg.Raw p ⟨⟨⟨0, 0⟩, 4⟩, 1⟩ sampleMem (.ok ()) o' m' ∧
      m'.load ⟨0, 0⟩ 4 = some [some 1, some 5, some 0, some 4] ∧ m' 1 = sampleMem 1 := by
  obtain ⟨⟨p, hp⟩, h⟩ := C77_encode .usize (5 : Nat)
  have hs : ShowsOutput sampleMem ⟨⟨⟨0, 0⟩, 4⟩, 1⟩ ⟨[1, 2, 3, 4], 1⟩ := ⟨⟨rfl, rfl⟩, rfl, by decide⟩
  obtain ⟨⟨r, o', m', hr⟩, h2⟩ := (h p hp _ _ _ hs).imp_left (· ⟨2, rfl⟩)
  obtain ⟨h3, h4, h5, -, h6⟩ := h2 r o' m' hr
  have h3' : r = .ok () := h3
  subst h3'
  obtain ⟨⟨-, h7⟩, -⟩ := h4
  rw [h5] at h7
  exact ⟨p, hp, o', m', hr, h7, h6.other fun _ e => absurd e (by decide)⟩

/-- C78, `read`: in memory it is that of the list model; the slice returned points into the buffer, at
the old position, and can be read. -/
theorem C78_read (m : Mem Byte) (i : RawInput) (I : Input) (h : ShowsInput m i I) (n : Nat) :
    (∀ e I1, I.read n = (.error e, I1) → I1 = I ∧ i.read n m = (.err e, i)) ∧
    ∀ d I1, I.read n = (.ok d, I1) → ∃ s, i.read n m = (.ok s, ⟨i.buf, i.pos + n⟩) ∧
      Holds m s d ∧ s.ptr.alloc = i.buf.ptr.alloc ∧ s.ptr.off = i.buf.ptr.off + i.pos ∧
      ShowsInput m ⟨i.buf, i.pos + n⟩ I1 :=
  RawInput.read_shows h n

example : ShowsInput sampleMem ⟨⟨⟨0, 0⟩, 4⟩, 1⟩ ⟨[1, 2, 3, 4], 1⟩ ∧
    (⟨⟨⟨0, 0⟩, 4⟩, 1⟩ : RawInput).read 2 sampleMem = (.ok ⟨⟨0, 1⟩, 2⟩, ⟨⟨⟨0, 0⟩, 4⟩, 3⟩) :=
  ⟨⟨⟨rfl, rfl⟩, rfl, by decide⟩, rfl⟩

/-- C78, `read_into`: in memory it is that of the list model, for a destination that is apart from the
buffer; nothing but the destination is different afterwards. -/
theorem C78_read_into (m : Mem Byte) (i : RawInput) (I : Input) (h : ShowsInput m i I) (dst : RawSlice)
    (x : List Byte) (hx : Holds m dst x) (ha : Mem.Apart i.buf.ptr i.buf.len dst.ptr dst.len) :
    (∀ e y I1, I.readInto x = (.error e, y, I1) → I1 = I ∧ y = x ∧ i.readInto dst m = (.err e, i, m)) ∧
    ∀ d I1, I.readInto x = (.ok (), d, I1) →
      ∃ m', i.readInto dst m = (.ok (), ⟨i.buf, i.pos + dst.len⟩, m') ∧ Holds m' dst d ∧
        OnlyIn dst.ptr dst.len m m' ∧ ShowsInput m' ⟨i.buf, i.pos + dst.len⟩ I1 :=
  RawInput.readInto_shows h hx ha

example : Holds sampleMem ⟨⟨1, 0⟩, 2⟩ [8, 9] ∧ Mem.Apart (⟨0, 0⟩ : Ptr) 4 ⟨1, 0⟩ 2 ∧
    ((⟨⟨⟨0, 0⟩, 4⟩, 1⟩ : RawInput).readInto ⟨⟨1, 0⟩, 2⟩ sampleMem).2.2 1 = some [some 2, some 3] :=
  ⟨⟨rfl, rfl⟩, by decide, rfl⟩

/-- C78, `remaining`. -/
theorem C78_remaining (m : Mem Byte) (i : RawInput) (I : Input) (h : ShowsInput m i I) :
    i.remaining = .ok I.remaining := by
  obtain ⟨⟨h1, h2⟩, h3, h4⟩ := h
  unfold RawInput.remaining
  rw [if_neg (by omega), h1, h3]
  rfl

example : (⟨⟨⟨0, 0⟩, 4⟩, 1⟩ : RawInput).remaining = .ok 3 := rfl

/-- C78. Every decoder is a program of reads, and running it in memory has the result that `decode`
has in the list model and leaves the stream that it leaves; memory is the same afterwards. There is
such a run, if there is memory for a local array at all. -/
theorem C78_decode (t : Ty) :
    (∃ p : DecProg t.Val, ∀ I, p.run I = t.decode I) ∧
    ∀ p : DecProg t.Val, (∀ I, p.run I = t.decode I) → ∀ m i I, ShowsInput m i I →
      ((∃ a, m a = none) → ∃ r i' m', DecProg.Raw p i m r i' m') ∧
      ∀ r i' m', DecProg.Raw p i m r i' m' →
        r = (t.decode I).1 ∧ ShowsInput m' i' (t.decode I).2 ∧ i'.buf = i.buf ∧ i.pos ≤ i'.pos ∧
        m' = m := by
  refine ⟨t.decode_isProg, fun p hp m i I h => ⟨fun ha => p.raw_total h ha, fun r i' m' hr => ?_⟩⟩
  have := hr.shows h
  rwa [hp] at this

example : ∃ p : DecProg Ty.usize.Val, (∀ I, p.run I = Ty.usize.decode I) ∧
    ∃ i', DecProg.Raw p ⟨⟨⟨0, 0⟩, 4⟩, 1⟩ sampleMem (.ok (770 : Nat)) i' sampleMem := by
  obtain ⟨⟨p, hp⟩, h⟩ := C78_decode .usize
  have hs : ShowsInput sampleMem ⟨⟨⟨0, 0⟩, 4⟩, 1⟩ ⟨[1, 2, 3, 4], 1⟩ := ⟨⟨rfl, rfl⟩, rfl, by decide⟩
  obtain ⟨⟨r, i', m', hr⟩, h2⟩ := (h p hp _ _ _ hs).imp_left (· ⟨2, rfl⟩)
  obtain ⟨h3, -, -, -, h6⟩ := h2 r i' m' hr
  have h3' : r = .ok (770 : Nat) := h3
  subst h3'
  subst h6
  exact ⟨p, hp, i', hr⟩

/-- C78. Decoding in memory is never undefined. Missing: types with `char` in them (C17), for which an
invalid `char` is the only undefined behaviour. -/
theorem C78_never_undefined_partial (t : Ty) (p : DecProg t.Val) (hp : ∀ I, p.run I = t.decode I)
    (m : Mem Byte) (i : RawInput) (I : Input) (h : ShowsInput m i I) (r : Res DecErr t.Val)
    (i' : RawInput) (m' : Mem Byte) (hr : DecProg.Raw p i m r i' m') (u : Ub) (hu : r = .ub u) :
    u = .invalidChar ∧ ¬ Everywhere (· ≠ .char) t := by
  rw [(((C78_decode t).2 p hp m i I h).2 r i' m' hr).1] at hu
  exact ⟨C17_only_invalid_char_partial t I u hu, fun ht => C17_no_ub_partial t ht I u hu⟩

/-- C78 is false of `char`: there are four octets in memory of which decoding is undefined. -/
theorem C78_char_false : ∃ (m : Mem Byte) (i : RawInput) (p : DecProg Ty.char.Val) (i' : RawInput)
    (m' : Mem Byte), (∀ I, p.run I = Ty.char.decode I) ∧ Holds m i.buf [0x00, 0xDE, 0, 0] ∧
      DecProg.Raw p i m (.ub .invalidChar) i' m' := by
  obtain ⟨⟨p, hp⟩, h⟩ := C78_decode .char
  let m : Mem Byte := fun a => if a = 0 then some [some 0x00, some 0xDE, some 0, some 0] else none
  have hs : ShowsInput m ⟨⟨⟨0, 0⟩, 4⟩, 0⟩ ⟨[0x00, 0xDE, 0, 0], 0⟩ := ⟨⟨rfl, rfl⟩, rfl, by decide⟩
  obtain ⟨⟨r, i', m', hr⟩, h2⟩ := (h p hp _ _ _ hs).imp_left (· ⟨1, rfl⟩)
  obtain ⟨h3, -⟩ := h2 r i' m' hr
  have h3' : r = .ub .invalidChar := h3
  subst h3'
  exact ⟨m, _, p, i', m', hp, hs.1, hr⟩

/-- C79. A program starts with memory `base` and no slots, and then makes, uses and drops any number
of slots in any way. Then every result is that of slots as values, the slots in memory are these
slots, each with an allocation of its own, and all other memory is as it was. -/
theorem C79_history (base : Mem Byte) (ops : List HeapOp) (xs : List HeapOut) (h : SlotHeap)
    (hr : HeapOp.RawRun ops ⟨[], base⟩ xs h) :
    ∃ L, HeapOp.steps ops [] = some (xs, L) ∧ ShowsHeap base h L :=
  hr.shows (showsHeap_nil base)

/-- C79. Every history of slots as values is one in memory, if memory does not run out. -/
theorem C79_possible (base : Mem Byte) (hf : ∀ n, ∃ a, n ≤ a ∧ base a = none) (ops : List HeapOp)
    (xs : List HeapOut) (L : List Slot) (hs : HeapOp.steps ops [] = some (xs, L)) :
    ∃ h, HeapOp.RawRun ops ⟨[], base⟩ xs h :=
  HeapOp.rawRun_total hf ops (showsHeap_nil base) hs

/-- C79. When all slots have been dropped, memory is what it was before the first was made. -/
theorem C79_no_leak (base : Mem Byte) (ops : List HeapOp) (xs : List HeapOut) (h : SlotHeap)
    (hr : HeapOp.RawRun ops ⟨[], base⟩ xs h) (hd : h.slots = []) : h.mem = base := by
  obtain ⟨L, -, H⟩ := C79_history base ops xs h hr
  funext a
  exact H.rest a fun i s hs => by rw [hd] at hs; exact nomatch hs

/-- C79. No history of operations on slots in memory is undefined, whatever the slots hold at first: not
what they do themselves, and not what is decoded, unless it is an invalid `char` (C17). -/
theorem C79_undefined_from {base : Mem Byte} {ops : List HeapOp} {h h' : SlotHeap} {xs : List HeapOut}
    {L : List Slot} (hr : HeapOp.RawRun ops h xs h') (H : ShowsHeap base h L) (u : Ub) :
    .unit (.ub u) ∉ xs ∧ .enc (.ub u) ∉ xs ∧ .bytes (.ub u) ∉ xs ∧
    ∀ t, .dec t (.ub u) ∈ xs → u = .invalidChar := by
  revert L
  induction hr with
  | nil h => exact fun {L} H => ⟨by simp, by simp, by simp, fun t ht => nomatch ht⟩
  | @cons op ops h h1 h2 x xs hop _ ih =>
    intro L H
    obtain ⟨L1, -, H1⟩ := hop.shows H
    obtain ⟨i1, i2, i3, i4⟩ := ih H1
    have hx : x ≠ .unit (.ub u) ∧ x ≠ .enc (.ub u) ∧ x ≠ .bytes (.ub u) ∧
        ∀ t, x = .dec t (.ub u) → u = .invalidChar := by
      cases hop with
      | new a ha => exact ⟨by simp, by simp, by simp, fun t ht => nomatch ht⟩
      | @copyData i d l m m' s s' r a hi ha hc =>
        obtain ⟨S, hS, hs⟩ := H.get hi
        have hs' : ShowsSlot (m.alloc a (d.map some)) s S :=
          ⟨hs.1.congr fun hn => if_neg (Mem.alive_of_load hs.1.holds.2 hn ha), hs.2⟩
        obtain ⟨m2, e1, -⟩ := RawSlot.copy_shows hs' (holds_alloc m a d)
          (apart_fresh hs.1.holds ha _).symm
        rw [e1] at hc
        rw [← (Prod.mk.inj hc).1]
        refine ⟨?_, by simp, by simp, fun t ht => nomatch ht⟩
        unfold Slot.copyFromSlice
        simp only
        split <;> simp
      | @copyFrom i j l m m' s s' q r hij hi hj hc =>
        obtain ⟨L', e, -⟩ := (HeapOp.Raw.copyFrom hij hi hj hc).shows H
        refine ⟨?_, by simp, by simp, fun t ht => nomatch ht⟩
        obtain ⟨S, hS, hs⟩ := H.get hi
        obtain ⟨Q, hQ, hq⟩ := H.get hj
        simp only [HeapOp.step, if_neg hij, hS, hQ, (RawSlot.asSlice_shows hq).2.1] at e
        rw [← (Prod.mk.inj (Option.some.inj e)).1]
        unfold Slot.copyFromSlice
        simp only
        split <;> simp
      | @setLen i n l m s hi =>
        refine ⟨?_, by simp, by simp, fun t ht => nomatch ht⟩
        unfold RawSlot.setLen
        split <;> simp
      | @setByte i k b l m s hi =>
        obtain ⟨S, hS, hs⟩ := H.get hi
        refine ⟨?_, by simp, by simp, fun t ht => nomatch ht⟩
        rw [(RawSlot.setByte_shows hs k b).1]
        unfold Slot.setByte
        split <;> simp
      | write hi hp hr =>
        refine ⟨by simp, ?_, by simp, fun t ht => nomatch ht⟩
        split <;> simp
      | @writeFails i t v l m m' s p o r hi hp hr hne =>
        obtain ⟨S, hS, hs⟩ := H.get hi
        refine ⟨by simp, ?_, by simp, fun t ht => nomatch ht⟩
        have := C77_never_undefined t v p hp m _ _ hs.output r o m' hr u
        simpa using this
      | @read i t l m m' s p I r hi hp hr =>
        obtain ⟨S, hS, hs⟩ := H.get hi
        refine ⟨by simp, by simp, by simp, fun t' ht => ?_⟩
        cases ht
        exact (C78_never_undefined_partial t p hp m _ _ hs.input _ I m' hr u rfl).1
      | @asSlice i l m s hi =>
        obtain ⟨S, hS, hs⟩ := H.get hi
        refine ⟨by simp, by simp, ?_, fun t ht => nomatch ht⟩
        obtain ⟨e1, e2, -⟩ := RawSlot.asSlice_shows hs
        rw [e1, e2]
        simp
      | drop hi hd => exact ⟨by simp, by simp, by simp, fun t ht => nomatch ht⟩
      | @dropUb i l m s u' hi hd =>
        obtain ⟨S, hS, hs⟩ := H.get hi
        rw [RawSlot.drop_shows hs] at hd
        exact nomatch hd
    refine ⟨?_, ?_, ?_, ?_⟩
    · intro hm
      rcases List.mem_cons.mp hm with e | e
      · exact hx.1 e.symm
      · exact i1 e
    · intro hm
      rcases List.mem_cons.mp hm with e | e
      · exact hx.2.1 e.symm
      · exact i2 e
    · intro hm
      rcases List.mem_cons.mp hm with e | e
      · exact hx.2.2.1 e.symm
      · exact i3 e
    · intro t hm
      rcases List.mem_cons.mp hm with e | e
      · exact hx.2.2.2 t e.symm
      · exact i4 t e

/-- C79. No history that begins without slots is undefined, but for an invalid `char` (C17). -/
theorem C79_undefined_only_char (base : Mem Byte) (ops : List HeapOp) (xs : List HeapOut) (h : SlotHeap)
    (hr : HeapOp.RawRun ops ⟨[], base⟩ xs h) (u : Ub) :
    .unit (.ub u) ∉ xs ∧ .enc (.ub u) ∉ xs ∧ .bytes (.ub u) ∉ xs ∧
    ∀ t, .dec t (.ub u) ∈ xs → u = .invalidChar :=
  C79_undefined_from hr (showsHeap_nil base) u

/-- Two slots; one is copied to the other, and both are dropped. -/
def sampleHeapOps : List HeapOp :=
  [.new 2, .new 0, .new 4, .write 2 .usize (5 : Nat), .copyFrom 0 2, .setByte 2 3 7, .setLen 2 4,
    .asSlice 2, .asSlice 0, .copyData 0 [1, 2, 3], .read 0 .usize, .drop 0, .drop 1, .drop 0]

example : ∃ xs, HeapOp.steps sampleHeapOps [] = some (xs, []) ∧
    xs[7]? = some (.bytes (.ok [5, 0, 0, 7])) ∧ xs[8]? = some (.bytes (.ok [5, 0])) ∧
    xs[9]? = some (.unit (.panic .assertion)) ∧ xs[10]? = some (.dec .usize (.ok (5 : Nat))) ∧
    ∃ h, HeapOp.RawRun sampleHeapOps ⟨[], sampleMem⟩ xs h ∧ h.mem = sampleMem := by
  refine ⟨_, rfl, rfl, rfl, rfl, rfl, ?_⟩
  obtain ⟨h, hr⟩ := C79_possible sampleMem (fun n => ⟨n + 2, by omega, rfl⟩) sampleHeapOps _ [] rfl
  obtain ⟨L, e, H⟩ := C79_history sampleMem _ _ h hr
  have hL : L = [] := (Prod.mk.inj (Option.some.inj e)).2.symm
  refine ⟨h, hr, C79_no_leak _ _ _ h hr ?_⟩
  apply List.eq_nil_of_length_eq_zero
  rw [H.length, hL]
  rfl

/-- C79. `from_raw_parts`, under its safety condition (the pointer is to an allocation of its own with
exactly `cap` octets, and `len` is within), gives the slot with these octets. -/
theorem C79_from_raw_parts (m : Mem Byte) (ptr : Ptr) (cap len : Nat) (d : List Byte)
    (h : Owns m ⟨ptr, cap⟩ d) (hl : len ≤ cap) :
    ShowsSlot m (RawSlot.fromRawParts ptr cap len) ⟨d, len⟩ :=
  ⟨h, rfl, h.1 ▸ hl⟩

example : Owns sampleMem ⟨⟨0, 0⟩, 4⟩ [1, 2, 3, 4] := ⟨rfl, fun _ => ⟨rfl, rfl⟩⟩

/-- The condition is needed: with a length out of bounds, `as_slice` is undefined, and with a capacity
that is not the size of the allocation, `drop` is. -/
example : (RawSlot.fromRawParts ⟨0, 0⟩ 4 5).asSlice sampleMem = .ub .outOfBounds ∧
    (match (RawSlot.fromRawParts ⟨0, 0⟩ 3 3).drop sampleMem with
      | .error u => u = .outOfBounds
      | .ok _ => False) := ⟨rfl, rfl⟩

end Oct.Props
