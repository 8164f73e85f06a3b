import Verif.Spec.Stream
import Verif.Proofs.Emits
/-
Histories of stream operations, and their refinement to logs and queues.
-/
namespace Oct
open Spec

/-- A history of `Output::write` calls: the outcomes, and the final stream. -/
def Output.writes (o : Output) : List (List Byte) → List (Except OutputError Unit) × Output
  | [] => ([], o)
  | d :: ds =>
    let r := o.write d
    let rs := r.2.writes ds
    (r.1 :: rs.1, rs.2)

/-- One `Input::read` or `Input::read_into` call. -/
def Input.readOp (i : Input) : ReadOp → ReadOut × Input
  | .read n =>
    match i.read n with
    | (.ok d, i') => (⟨none, d⟩, i')
    | (.error e, i') => (⟨some e, []⟩, i')
  | .readInto dst =>
    match i.readInto dst with
    | (.ok (), d, i') => (⟨none, d⟩, i')
    | (.error e, d, i') => (⟨some e, d⟩, i')

/-- A history of reads. -/
def Input.reads (i : Input) : List ReadOp → List ReadOut × Input
  | [] => ([], i)
  | op :: ops =>
    let r := i.readOp op
    let rs := r.2.reads ops
    (r.1 :: rs.1, rs.2)

/-- The stream `o` over what was initially `buf` represents the log `l`. -/
structure Output.Rep (buf : List Byte) (o : Output) (l : List Byte) : Prop where
  len : l.length ≤ buf.length
  pos : o.pos = l.length
  buf : o.buf = l ++ buf.drop l.length

theorem Output.Rep.new (buf : List Byte) : Output.Rep buf (Output.new buf) [] :=
  ⟨by simp, rfl, by simp [Output.new]⟩

theorem Output.Rep.capacity {buf : List Byte} {o : Output} {l : List Byte}
    (h : Output.Rep buf o l) : o.buf.length = buf.length := by
  have := h.len
  rw [h.buf, List.length_append, List.length_drop]; omega

theorem Output.Rep.write {buf : List Byte} {o : Output} {l : List Byte} (h : Output.Rep buf o l)
    (d : List Byte) : (o.write d).1 = (logWrite buf.length l d).1 ∧
      Output.Rep buf (o.write d).2 (logWrite buf.length l d).2 := by
  have hc := h.capacity
  have hp := h.pos
  have hl := h.len
  unfold Output.write logWrite
  simp only [hc, hp]
  by_cases hd : l.length + d.length ≤ buf.length
  · rw [if_neg (by omega), if_pos hd]
    refine ⟨rfl, ?_, ?_, ?_⟩
    · simpa using hd
    · simp [Output.put, hp]
    · simp only [Output.put, hp, h.buf, List.length_append]
      rw [List.take_append_of_le_length (by omega), List.take_of_length_le (by omega),
        List.drop_append, List.drop_eq_nil_of_le (by omega), List.nil_append, List.drop_drop]
      congr 2
      omega
  · rw [if_pos (by omega), if_neg hd]
    exact ⟨rfl, h⟩

theorem Output.Rep.writes {buf : List Byte} (ds : List (List Byte)) :
    ∀ {o : Output} {l : List Byte}, Output.Rep buf o l →
      (o.writes ds).1 = (logWrites buf.length l ds).1 ∧
      Output.Rep buf (o.writes ds).2 (logWrites buf.length l ds).2 := by
  induction ds with
  | nil => intro o l h; exact ⟨rfl, h⟩
  | cons d ds ih =>
    intro o l h
    have h1 := h.write d
    have h2 := ih h1.2
    simp only [Output.writes, logWrites, h1.1, h2.1, true_and]
    exact h2.2

theorem logWrites_accepted (cap : Nat) (ds : List (List Byte)) : ∀ (l : List Byte),
    (logWrites cap l ds).2 = l ++ accepted ds (logWrites cap l ds).1 := by
  induction ds with
  | nil => intro l; simp [logWrites, accepted]
  | cons d ds ih =>
    intro l
    simp only [logWrites]
    rw [ih]
    unfold logWrite
    split <;> simp [accepted]

theorem logWrites_length (cap : Nat) (ds : List (List Byte)) : ∀ (l : List Byte),
    (logWrites cap l ds).1.length = ds.length := by
  induction ds with
  | nil => intro l; rfl
  | cons d ds ih => intro l; simp [logWrites, ih]

theorem List.take_eq_of_append {α : Type} {l a b : List α} (h : l = a ++ b) :
    l.take a.length = a := by rw [h]; simp

/-- The stream `i` over `buf` has yet to deliver `rest`. -/
structure Input.Rep (buf : List Byte) (i : Input) (rest : List Byte) : Prop where
  same : i.buf = buf
  pos : i.pos + rest.length = buf.length
  rest : rest = buf.drop i.pos

theorem Input.Rep.new (buf : List Byte) : Input.Rep buf (Input.new buf) buf :=
  ⟨rfl, by simp [Input.new], by simp [Input.new]⟩

theorem Input.Rep.readOp {buf : List Byte} {i : Input} {rest : List Byte} (h : Input.Rep buf i rest)
    (op : ReadOp) : (i.readOp op).1 = (queueRead buf.length rest op).1 ∧
      Input.Rep buf (i.readOp op).2 (queueRead buf.length rest op).2 := by
  have hp := h.pos
  have hb := h.same
  have hr := h.rest
  have hadv : ∀ n, n ≤ rest.length → Input.Rep buf { i with pos := i.pos + n } (rest.drop n) := by
    intro n hn
    refine ⟨hb, by simp; omega, ?_⟩
    rw [hr, List.drop_drop]
  have hpos : i.pos = buf.length - rest.length := by omega
  cases op with
  | read n =>
    unfold Input.readOp Input.read queueRead ReadOp.count
    simp only [hb]
    by_cases hn : n ≤ rest.length
    · rw [if_neg (by omega), if_pos hn]
      exact ⟨by simp [hr], hb ▸ hadv n hn⟩
    · rw [if_pos (by omega), if_neg hn]
      exact ⟨by simp [hpos], h⟩
  | readInto dst =>
    unfold Input.readOp Input.readInto queueRead ReadOp.count Input.remaining Input.capacity
      Input.position
    simp only [hb]
    by_cases hn : dst.length ≤ rest.length
    · rw [if_neg (by omega), if_pos hn]
      exact ⟨by simp [hr], hb ▸ hadv _ hn⟩
    · rw [if_pos (by omega), if_neg hn]
      exact ⟨by simp [hpos], h⟩

theorem Input.Rep.reads {buf : List Byte} (ops : List ReadOp) :
    ∀ {i : Input} {rest : List Byte}, Input.Rep buf i rest →
      (i.reads ops).1 = (queueReads buf.length rest ops).1 ∧
      Input.Rep buf (i.reads ops).2 (queueReads buf.length rest ops).2 := by
  induction ops with
  | nil => intro o l h; exact ⟨rfl, h⟩
  | cons d ds ih =>
    intro o l h
    have h1 := h.readOp d
    have h2 := ih h1.2
    simp only [Input.reads, queueReads, h1.1, h2.1, true_and]
    exact h2.2

theorem queueReads_delivered (cap : Nat) (ops : List ReadOp) : ∀ (rest : List Byte),
    rest = delivered (queueReads cap rest ops).1 ++ (queueReads cap rest ops).2 := by
  induction ops with
  | nil => intro l; simp [queueReads, delivered]
  | cons op ops ih =>
    intro rest
    simp only [queueReads]
    by_cases hn : op.count ≤ rest.length
    · have hq : queueRead cap rest op = (⟨none, rest.take op.count⟩, rest.drop op.count) := by
        unfold queueRead; rw [if_pos hn]
      rw [hq]
      simp only [delivered, List.append_assoc]
      rw [← ih, List.take_append_drop]
    · have hq : (queueRead cap rest op).2 = rest := by
        unfold queueRead; rw [if_neg hn]
      have hq' : ∃ e d, (queueRead cap rest op).1 = ⟨some e, d⟩ := by
        unfold queueRead; rw [if_neg hn]; exact ⟨_, _, rfl⟩
      obtain ⟨e, d, he⟩ := hq'
      rw [he, hq]
      simp only [delivered]
      exact ih rest

end Oct
