import Verif.Proofs.Stream
/-
C01, C02: byte streams, for all histories of operations.
-/
namespace Oct.Props
open Oct Spec

/-- C01. Over any buffer and any history of writes, the output stream behaves like a log of bounded
capacity (`Spec.logWrites`): same outcome for every write, and in the end the written part is the
log, which is the concatenation of the data of the successful writes; the position is the log's
length and at most the capacity; the capacity and the octets past the position are as in the
beginning. (As the history is arbitrary, this is so after every step of it.) -/
theorem C01_output_is_log (buf : List Byte) (ds : List (List Byte)) :
    let run := (Output.new buf).writes ds
    let log := (logWrites buf.length [] ds).2
    run.1 = (logWrites buf.length [] ds).1 ∧
    run.1.length = ds.length ∧
    log = accepted ds run.1 ∧
    run.2.asSlice = log ∧
    run.2.position = log.length ∧
    run.2.capacity = buf.length ∧
    run.2.position ≤ run.2.capacity ∧
    run.2.position + run.2.remaining = run.2.capacity ∧
    run.2.buf.drop run.2.position = buf.drop run.2.position := by
  have h := (Output.Rep.new buf).writes ds
  have hc := h.2.capacity
  have hp := h.2.pos
  have hl := h.2.len
  have hlen := logWrites_length buf.length ds []
  refine ⟨h.1, by rw [h.1, hlen], ?_, ?_, hp, hc, ?_, ?_, ?_⟩
  · rw [h.1]; simpa using logWrites_accepted buf.length ds []
  · rw [Output.asSlice, h.2.buf, hp]; simp
  · simp only [Output.position, Output.capacity, hc, hp]; exact hl
  · simp only [Output.remaining, Output.position, Output.capacity, hc, hp]; omega
  · simp only [Output.position, h.2.buf, hp]; simp

/-- C01, one step: in every reachable state, a write succeeds exactly if its data fits in the
remaining space; a failing write changes nothing and reports capacity, position and count. -/
theorem C01_output_write (buf : List Byte) (ds : List (List Byte)) (d : List Byte) :
    let o := ((Output.new buf).writes ds).2
    (d.length ≤ o.remaining → (o.write d).1 = .ok () ∧
      (o.write d).2.asSlice = o.asSlice ++ d ∧
      (o.write d).2.position = o.position + d.length) ∧
    (o.remaining < d.length →
      o.write d = (.error { capacity := o.capacity, position := o.position, count := d.length }, o)) := by
  have h := ((Output.Rep.new buf).writes ds).2
  intro o
  have hc := h.capacity
  have hp := h.pos
  have hl := h.len
  have hw := h.write d
  have hrem : o.remaining = buf.length - (logWrites buf.length [] ds).2.length := by
    show o.buf.length - o.pos = _
    rw [show o.buf.length = buf.length from hc, show o.pos = _ from hp]
  constructor
  · intro hd
    have hlw : logWrite buf.length (logWrites buf.length [] ds).2 d
        = (.ok (), (logWrites buf.length [] ds).2 ++ d) := by
      unfold logWrite; rw [if_pos (by omega)]
    rw [hlw] at hw
    refine ⟨hw.1, ?_, ?_⟩
    · show (o.write d).2.buf.take (o.write d).2.pos = o.buf.take o.pos ++ d
      rw [hw.2.buf, hw.2.pos, show o.buf = _ from h.buf, show o.pos = _ from hp]
      simp only [List.take_left']
    · show (o.write d).2.pos = o.pos + d.length
      rw [hw.2.pos, show o.pos = _ from hp]; simp
  · intro hd
    have hd' : o.buf.length - o.pos < d.length := hd
    unfold Output.write
    simp only [hd', if_true]
    rfl

-- A write that succeeds, one that fails in the middle, one that fits exactly, and one too many.
example : ((Output.new [9, 9, 9, 9]).writes [[1, 2, 3], [4, 5], [], [6], [7]]).2
    = ⟨[1, 2, 3, 6], 4⟩ := by decide
example : ((Output.new [9, 9, 9, 9]).writes [[1, 2, 3], [4, 5]]).1.length = 2
    ∧ ((Output.new [9, 9, 9, 9]).writes [[1, 2, 3], [4, 5]]).2.remaining < [4, 5].length := by decide

/-- C02. Over any buffer and any history of reads, of both kinds, the input stream behaves like a
queue of octets (`Spec.queueReads`): same data or error for every read, the buffer is unchanged, and
the delivered data are exactly the first `position` octets, in order. -/
theorem C02_input_is_queue (buf : List Byte) (ops : List ReadOp) :
    let run := (Input.new buf).reads ops
    run.1 = (queueReads buf.length buf ops).1 ∧
    run.2.buf = buf ∧
    run.2.position ≤ run.2.capacity ∧
    run.2.position + run.2.remaining = buf.length ∧
    delivered run.1 = buf.take run.2.position ∧
    (queueReads buf.length buf ops).2 = buf.drop run.2.position := by
  have h := (Input.Rep.new buf).reads ops
  have hb := h.2.same
  have hp := h.2.pos
  have hr := h.2.rest
  refine ⟨h.1, hb, ?_, ?_, ?_, hr⟩
  · simp only [Input.position, Input.capacity, hb]; omega
  · simp only [Input.remaining, Input.position, Input.capacity, hb]; omega
  · rw [h.1]
    have hd := queueReads_delivered buf.length ops buf
    have hlen : (delivered (queueReads buf.length buf ops).1).length
        = ((Input.new buf).reads ops).2.pos := by
      have := congrArg List.length hd
      rw [List.length_append] at this; omega
    rw [Input.position, ← hlen]
    exact (List.take_eq_of_append hd).symm

/-- C02, one step: in every reachable state, a read of either kind succeeds exactly if the count does
not exceed the remaining octets; both kinds then deliver the same data and leave the same state; a
failing read leaves the stream (and the destination) as they were and reports capacity, position and
count. -/
theorem C02_input_read (buf : List Byte) (ops : List ReadOp) (dst : List Byte) :
    let i := ((Input.new buf).reads ops).2
    let n := dst.length
    (n ≤ i.remaining → ∃ d i', d.length = n ∧ i'.position = i.position + n ∧
      buf.drop i.position = d ++ buf.drop i'.position ∧
      i.read n = (.ok d, i') ∧ i.readInto dst = (.ok (), d, i')) ∧
    (i.remaining < n →
      i.read n = (.error { capacity := buf.length, position := i.position, count := n }, i) ∧
      i.readInto dst
        = (.error { capacity := buf.length, position := i.position, count := n }, dst, i)) := by
  intro i n
  have h := ((Input.Rep.new buf).reads ops).2
  have hb : i.buf = buf := h.same
  have hp := h.pos
  constructor
  · intro hn
    have hn' : n ≤ i.buf.length - i.pos := hn
    refine ⟨(i.buf.drop i.pos).take n, { i with pos := i.pos + n }, ?_, rfl, ?_, ?_, ?_⟩
    · rw [List.length_take, List.length_drop]; omega
    · show buf.drop i.pos = (i.buf.drop i.pos).take n ++ buf.drop (i.pos + n)
      rw [hb, ← List.drop_drop, List.take_append_drop]
    · unfold Input.read; rw [if_neg (by omega)]
    · exact if_neg (Nat.not_lt.mpr hn)
  · intro hn
    have hn' : i.buf.length - i.pos < n := hn
    constructor
    · unfold Input.read; rw [if_pos hn', hb]; rfl
    · rw [← hb]; exact if_pos hn

-- A read, a failing copying read, a copying read of everything left, a failing read.
example : delivered ((Input.new [1, 2, 3]).reads
    [.read 1, .readInto [0, 0, 0], .readInto [7, 7], .read 1]).1 = [1, 2, 3] := by decide
example : [7, 7].length ≤ ((Input.new [1, 2, 3]).reads [.read 1]).2.remaining
    ∧ ((Input.new [1, 2, 3]).reads [.read 2]).2.remaining < [7, 7].length := by decide

end Oct.Props
