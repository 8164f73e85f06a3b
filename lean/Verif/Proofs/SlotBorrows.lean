import Verif.Proofs.Nested
import Verif.Spec.SlotBorrows
/-
That slots keep what the borrow checker promises.
-/
namespace Oct.Alias
open Spec Sound

theorem head_not_buf {p : Place} {l : Nat} (h : p.head.has l = true) : ¬ p.buf.has l = true := by
  rw [has_iff] at *
  simp only [Place.buf, Place.head] at *
  omega

theorem buf_of_not_head {p : Place} {l : Nat} (hl : p.whole.has l = true) (h : ¬ p.head.has l = true) :
    p.buf.has l = true := by
  rw [has_iff] at *
  simp only [Place.buf, Place.head, Place.whole] at *
  omega

theorem behind_miss {p : Place} {d k l : Nat} (hl : p.whole.has l = true) (hd : Behind p d) :
    ¬ (⟨d, k⟩ : Region).has l = true := by
  intro h
  rw [has_iff] at *
  simp only [Place.whole, Behind] at *
  omega

theorem outputWrite_fit {p : Place} {d b pos n m : Nat} (h : pos + n ≤ p.cap) : p.outputWrite d b pos n m =
    ((), m + 4, [.retag .shared dataTag m ⟨d, n⟩, .retag .shared b (m + 1) p.buf, .retag .excl b (m + 2) p.buf,
      .retag .raw (m + 2) (m + 3) p.buf, .read m ⟨d, n⟩, .write (m + 3) ⟨p.at_ + pos, n⟩]) := by
  simp only [Place.outputWrite, if_pos h]
  rfl

theorem outputWrite_refused {p : Place} {d b pos n m : Nat} (h : ¬ pos + n ≤ p.cap) : p.outputWrite d b pos n m =
    ((), m + 2, [.retag .shared dataTag m ⟨d, n⟩, .retag .shared b (m + 1) p.buf]) := by
  simp only [Place.outputWrite, if_neg h]
  rfl

theorem inputRead_fit {p : Place} {b pos n m : Nat} (h : pos + n ≤ p.cap) : p.inputRead b pos n m =
    ((), m + 3, [.retag .shared b m p.buf, .retag .shared b (m + 1) p.buf,
      .retag .shared (m + 1) (m + 2) ⟨p.at_ + pos, n⟩, .read (m + 2) ⟨p.at_ + pos, n⟩]) := by
  simp only [Place.inputRead, if_pos h]
  rfl

theorem inputRead_refused {p : Place} {b pos n m : Nat} (h : ¬ pos + n ≤ p.cap) : p.inputRead b pos n m =
    ((), m + 1, [.retag .shared b m p.buf]) := by
  simp only [Place.inputRead, if_neg h]
  rfl

theorem position_le (cap : Nat) : (ns : List Nat) → (pos : Nat) → pos ≤ cap → position cap pos ns ≤ cap
  | [], _, h => h
  | n :: ns, pos, h => by
    show position cap (if pos + n ≤ cap then pos + n else pos) ns ≤ cap
    refine position_le cap ns _ ?_
    split <;> omega

theorem piece_buf {p : Place} {pos n l : Nat} (hf : pos + n ≤ p.cap) (h : (⟨p.at_ + pos, n⟩ : Region).has l = true) :
    p.buf.has l = true := by
  rw [has_iff] at *
  simp only [Place.buf] at *
  omega

namespace Nest
variable {σ : Type} {R : Rules σ} {rule : Loan → Prop} {S : Sound R rule} (N : Nest S)

/-- What holds inside: at the slot itself, and in its buffer. -/
def At (p : Place) (l : Nat) (hs bs : List Nat) (n : Nat) (s : σ) : Prop :=
  (p.head.has l = true → N.Tip hs n s) ∧ (¬ p.head.has l = true → N.Tip bs n s)

variable {N} {p : Place} {l : Nat}

theorem At.mono {hs bs : List Nat} {n m : Nat} {s : σ} (h : N.At p l hs bs n s) (hn : n ≤ m) : N.At p l hs bs m s :=
  ⟨fun hh => N.mono hn (h.1 hh), fun hh => N.mono hn (h.2 hh)⟩

theorem At.popHead {h g : Nat} {hs bs : List Nat} {n : Nat} {s : σ} (h : N.At p l (h :: g :: hs) bs n s) :
    N.At p l (g :: hs) bs n s := ⟨fun hh => N.pop (h.1 hh), h.2⟩

theorem At.popBuf {h g : Nat} {hs bs : List Nat} {n : Nat} {s : σ} (h : N.At p l hs (h :: g :: bs) n s) :
    N.At p l hs (g :: bs) n s := ⟨h.1, fun hh => N.pop (h.2 hh)⟩

theorem At.exclHead {h : Nat} {hs bs : List Nat} {n : Nat} {s : σ} (ha : N.At p l (h :: hs) bs n s) :
    ∃ s', (Event.retag .excl h n p.head).act R l s = some s' ∧ N.At p l (n :: h :: hs) bs (n + 1) s' := by
  by_cases hh : p.head.has l = true
  · obtain ⟨s', h1, h2⟩ := N.excl (ha.1 hh)
    exact ⟨s', (hit_retag hh).trans h1, fun _ => h2, fun h => absurd hh h⟩
  · exact ⟨s, miss_retag hh, fun h => absurd h hh, fun _ => N.mono (Nat.le_succ n) (ha.2 hh)⟩

theorem At.readHead {h : Nat} {hs bs : List Nat} {n : Nat} {s : σ} (ha : N.At p l (h :: hs) bs n s) :
    ∃ s', (Event.read h p.head).act R l s = some s' ∧ N.At p l (h :: hs) bs n s' := by
  by_cases hh : p.head.has l = true
  · obtain ⟨s', h1, h2⟩ := N.read (ha.1 hh)
    exact ⟨s', (hit_read hh).trans h1, fun _ => h2, fun h => absurd hh h⟩
  · exact ⟨s, miss_read hh, ha⟩

theorem At.writeHead {h : Nat} {hs bs : List Nat} {n : Nat} {s : σ} (ha : N.At p l (h :: hs) bs n s) :
    ∃ s', (Event.write h p.head).act R l s = some s' ∧ N.At p l (h :: hs) bs n s' := by
  by_cases hh : p.head.has l = true
  · obtain ⟨s', h1, h2⟩ := N.write (ha.1 hh)
    exact ⟨s', (hit_write hh).trans h1, fun _ => h2, fun h => absurd hh h⟩
  · exact ⟨s, miss_write hh, ha⟩

theorem At.lookHead {h : Nat} {hs bs : List Nat} {n : Nat} {s : σ} (ha : N.At p l (h :: hs) bs n s) :
    ∃ s1 s', (Event.retag .shared h n p.head).act R l s = some s1 ∧ (Event.read n p.head).act R l s1 = some s' ∧
      N.At p l (h :: hs) bs (n + 1) s' := by
  by_cases hh : p.head.has l = true
  · obtain ⟨s1, h1, _, s', h2, h3⟩ := N.look (ha.1 hh)
    exact ⟨s1, s', (hit_retag hh).trans h1, (hit_read hh).trans h2, fun _ => h3, fun h => absurd hh h⟩
  · exact ⟨s, s, miss_retag hh, miss_read hh, ha.mono (Nat.le_succ n)⟩

theorem At.exclBuf (hl : p.whole.has l = true) {b : Nat} {hs bs : List Nat} {n : Nat} {s : σ}
    (ha : N.At p l hs (b :: bs) n s) :
    ∃ s', (Event.retag .excl b n p.buf).act R l s = some s' ∧ N.At p l hs (n :: b :: bs) (n + 1) s' := by
  by_cases hh : p.head.has l = true
  · exact ⟨s, miss_retag (head_not_buf hh), fun _ => N.mono (Nat.le_succ n) (ha.1 hh), fun h => absurd hh h⟩
  · obtain ⟨s', h1, h2⟩ := N.excl (ha.2 hh)
    exact ⟨s', (hit_retag (buf_of_not_head hl hh)).trans h1, fun h => absurd h hh, fun _ => h2⟩

theorem At.rawBuf (hl : p.whole.has l = true) {b c : Nat} {hs bs : List Nat} {n : Nat} {s : σ}
    (ha : N.At p l hs (b :: c :: bs) n s) :
    ∃ s', (Event.retag .raw b n p.buf).act R l s = some s' ∧ N.At p l hs (n :: b :: c :: bs) (n + 1) s' := by
  by_cases hh : p.head.has l = true
  · exact ⟨s, miss_retag (head_not_buf hh), fun _ => N.mono (Nat.le_succ n) (ha.1 hh), fun h => absurd hh h⟩
  · obtain ⟨s', h1, h2⟩ := N.raw (ha.2 hh)
    exact ⟨s', (hit_retag (buf_of_not_head hl hh)).trans h1, fun h => absurd h hh, fun _ => h2⟩

theorem At.lookBuf (hl : p.whole.has l = true) {b : Nat} {hs bs : List Nat} {n : Nat} {s : σ}
    (ha : N.At p l hs (b :: bs) n s) :
    ∃ s', (Event.retag .shared b n p.buf).act R l s = some s' ∧ N.At p l hs (b :: bs) (n + 1) s' := by
  by_cases hh : p.head.has l = true
  · exact ⟨s, miss_retag (head_not_buf hh), ha.mono (Nat.le_succ n)⟩
  · obtain ⟨s', h1, h2, _⟩ := N.look (ha.2 hh)
    exact ⟨s', (hit_retag (buf_of_not_head hl hh)).trans h1, fun h => absurd h hh, fun _ => h2⟩

theorem At.writeBuf {b : Nat} {hs bs : List Nat} {n : Nat} {s : σ} {g : Region} (hg : g.has l = true → p.buf.has l = true)
    (ha : N.At p l hs (b :: bs) n s) :
    ∃ s', (Event.write b g).act R l s = some s' ∧ N.At p l hs (b :: bs) n s' := by
  by_cases h : g.has l = true
  · have hh : ¬ p.head.has l = true := fun h' => head_not_buf h' (hg h)
    obtain ⟨s', h1, h2⟩ := N.write (ha.2 hh)
    exact ⟨s', (hit_write h).trans h1, fun h => absurd h hh, fun _ => h2⟩
  · exact ⟨s, miss_write h, ha⟩

theorem At.capacity (hl : p.whole.has l = true) {h : Nat} {hs : List Nat} {n : Nat} {s : σ}
    (ha : N.At p l (h :: hs) [0] n s) :
    ∃ s', runAt R l (p.slotCapacity h n).2.2 s = some s' ∧ N.At p l (h :: hs) [0] (n + 2) s' := by
  obtain ⟨s1, s2, h1, h2, a2⟩ := ha.lookHead
  obtain ⟨s3, h3, a3⟩ := a2.lookBuf hl
  refine ⟨s3, ?_, a3⟩
  show runAt R l [.retag .shared h n p.head, .read n p.head, .retag .shared 0 (n + 1) p.buf] s = _
  rw [runAt_cons h1, runAt_cons h2, runAt_cons h3]
  rfl

theorem At.mutPtr (hl : p.whole.has l = true) {h : Nat} {hs : List Nat} {n : Nat} {s : σ}
    (ha : N.At p l (h :: hs) [0] n s) :
    ∃ s', runAt R l (p.slotMutPtr h n).2.2 s = some s' ∧ N.At p l (h :: hs) [n + 2, n + 1, 0] (n + 3) s' := by
  obtain ⟨s1, h1, a1⟩ := ha.exclHead
  obtain ⟨s2, h2, a2⟩ := a1.readHead
  obtain ⟨s3, h3, a3⟩ := a2.popHead.exclBuf hl
  obtain ⟨s4, h4, a4⟩ := a3.rawBuf hl
  refine ⟨s4, ?_, a4⟩
  show runAt R l [.retag .excl h n p.head, .read n p.head, .retag .excl 0 (n + 1) p.buf,
    .retag .raw (n + 1) (n + 2) p.buf] s = _
  rw [runAt_cons h1, runAt_cons h2, runAt_cons h3, runAt_cons h4]
  rfl

theorem At.setLenUnchecked (hl : p.whole.has l = true) {h : Nat} {hs : List Nat} {n : Nat} {s : σ}
    (ha : N.At p l (h :: hs) [0] n s) :
    ∃ s', runAt R l (p.setLenUnchecked h n).2.2 s = some s' ∧ N.At p l (h :: hs) [0] (n + 3) s' := by
  obtain ⟨s1, h1, a1⟩ := ha.exclHead
  obtain ⟨s2, h2, a2⟩ := a1.capacity hl
  obtain ⟨s3, h3, a3⟩ := a2.writeHead
  refine ⟨s3, ?_, a3.popHead⟩
  show runAt R l (.retag .excl h n p.head :: ((p.slotCapacity n (n + 1)).2.2 ++ [.write n p.head])) s = _
  rw [runAt_cons h1, runAt_append, h2, Option.bind_some, runAt_cons h3]
  rfl

theorem At.setLen (hl : p.whole.has l = true) {h : Nat} {hs : List Nat} {n : Nat} {s : σ}
    (ha : N.At p l (h :: hs) [0] n s) :
    ∃ s', runAt R l (p.setLen h n).2.2 s = some s' ∧ N.At p l (h :: hs) [0] (n + 6) s' := by
  obtain ⟨s1, h1, a1⟩ := ha.exclHead
  obtain ⟨s2, h2, a2⟩ := a1.capacity hl
  obtain ⟨s3, h3, a3⟩ := a2.setLenUnchecked hl
  refine ⟨s3, ?_, a3.popHead⟩
  show runAt R l (.retag .excl h n p.head :: ((p.slotCapacity n (n + 1)).2.2 ++ (p.setLenUnchecked n (n + 3)).2.2)) s = _
  rw [runAt_cons h1, runAt_append, h2, Option.bind_some, h3]

theorem At.copy (hl : p.whole.has l = true) {d k : Nat} (hk : k ≤ p.cap) (hd : Behind p d) {n : Nat} {s : σ}
    (ha : N.At p l [0] [0] n s) :
    ∃ s', runAt R l (p.slotCopy d k 0 n).2.2 s = some s' ∧ N.At p l [0] [0] (n + 10) s' := by
  have hm := behind_miss (k := k) hl hd
  obtain ⟨s1, h1, a1⟩ := ha.exclHead
  obtain ⟨s2, h2, a2⟩ := (a1.mono (Nat.le_succ _)).capacity hl
  obtain ⟨s3, h3, a3⟩ := a2.mutPtr hl
  obtain ⟨s4, h4, a4⟩ := a3.writeBuf (g := p.items k) (items_buf hk)
  obtain ⟨s5, h5, a5⟩ := a4.popBuf.popBuf.setLenUnchecked hl
  refine ⟨s5, ?_, a5.popHead⟩
  show runAt R l (.retag .excl 0 n p.head :: .retag .shared dataTag (n + 1) ⟨d, k⟩ :: ((p.slotCapacity n (n + 2)).2.2 ++
    ((p.slotMutPtr n (n + 4)).2.2 ++ (.read (n + 1) ⟨d, k⟩ :: .write (n + 6) (p.items k) ::
      (p.setLenUnchecked n (n + 7)).2.2)))) s = _
  rw [runAt_cons h1, runAt_cons (miss_retag hm), runAt_append, h2, Option.bind_some, runAt_append, h3, Option.bind_some,
    runAt_cons (miss_read hm), runAt_cons h4, h5]

theorem At.outputWrite (hl : p.whole.has l = true) {d b pos k : Nat} (hd : Behind p d)
    {hs bs : List Nat} {n : Nat} {s : σ} (ha : N.At p l hs (b :: bs) n s) :
    ∃ s', runAt R l (p.outputWrite d b pos k n).2.2 s = some s' ∧
      N.At p l hs (b :: bs) (p.outputWrite d b pos k n).2.1 s' := by
  have hm := behind_miss (k := k) hl hd
  obtain ⟨s1, h1, a1⟩ := (ha.mono (Nat.le_succ _)).lookBuf hl
  by_cases hf : pos + k ≤ p.cap
  · rw [outputWrite_fit hf]
    obtain ⟨s2, h2, a2⟩ := a1.exclBuf hl
    obtain ⟨s3, h3, a3⟩ := a2.rawBuf hl
    obtain ⟨s4, h4, a4⟩ := a3.writeBuf (g := ⟨p.at_ + pos, k⟩) (piece_buf hf)
    refine ⟨s4, ?_, a4.popBuf.popBuf⟩
    simp only
    rw [runAt_cons (miss_retag hm), runAt_cons h1, runAt_cons h2, runAt_cons h3, runAt_cons (miss_read hm), runAt_cons h4]
    rfl
  · rw [outputWrite_refused hf]
    refine ⟨s1, ?_, a1⟩
    simp only
    rw [runAt_cons (miss_retag hm), runAt_cons h1]
    rfl

theorem At.outputWrites (hl : p.whole.has l = true) {d b : Nat} (hd : Behind p d) {hs bs : List Nat} : (ns : List Nat) →
    (pos n : Nat) → (s : σ) → N.At p l hs (b :: bs) n s →
    ∃ s', runAt R l (p.outputWrites d b pos ns n).2.2 s = some s' ∧
      N.At p l hs (b :: bs) (p.outputWrites d b pos ns n).2.1 s'
  | [], _, _, s, ha => ⟨s, rfl, ha⟩
  | k :: ns, pos, n, s, ha => by
    obtain ⟨s1, h1, a1⟩ := ha.outputWrite (pos := pos) (k := k) hl hd
    obtain ⟨s2, h2, a2⟩ := At.outputWrites hl hd ns (if pos + k ≤ p.cap then pos + k else pos) _ s1 a1
    refine ⟨s2, ?_, a2⟩
    show runAt R l ((p.outputWrite d b pos k n).2.2 ++ (p.outputWrites d b _ ns (p.outputWrite d b pos k n).2.1).2.2) s = _
    rw [runAt_append, h1, Option.bind_some, h2]

theorem At.write (hl : p.whole.has l = true) {d : Nat} (hd : Behind p d) (ns : List Nat) (ok : Bool) {n : Nat} {s : σ}
    (ha : N.At p l [0] [0] n s) :
    ∃ s', runAt R l (p.slotWrite d ns ok 0 n).2.2 s = some s' ∧ N.At p l [0] [0] (p.slotWrite d ns ok 0 n).2.1 s' := by
  obtain ⟨s1, h1, a1⟩ := ha.exclHead
  obtain ⟨s2, h2, a2⟩ := a1.readHead
  obtain ⟨s3, h3, a3⟩ := a2.exclBuf hl
  obtain ⟨s4, h4, a4⟩ := At.outputWrites hl hd ns 0 (n + 2) s3 a3
  have a4 := a4.popBuf
  cases ok with
  | true =>
    obtain ⟨s5, h5, a5⟩ := a4.setLen hl
    refine ⟨s5, ?_, a5.popHead⟩
    show runAt R l (.retag .excl 0 n p.head :: .read n p.head :: .retag .excl 0 (n + 1) p.buf ::
      ((p.outputWrites d (n + 1) 0 ns (n + 2)).2.2 ++
        (p.setLen n (p.outputWrites d (n + 1) 0 ns (n + 2)).2.1).2.2)) s = _
    rw [runAt_cons h1, runAt_cons h2, runAt_cons h3, runAt_append, h4, Option.bind_some, h5]
  | false =>
    refine ⟨s4, ?_, a4.popHead⟩
    show runAt R l (.retag .excl 0 n p.head :: .read n p.head :: .retag .excl 0 (n + 1) p.buf ::
      ((p.outputWrites d (n + 1) 0 ns (n + 2)).2.2 ++ [])) s = _
    rw [runAt_cons h1, runAt_cons h2, runAt_cons h3, List.append_nil, h4]

theorem At.ofW {n : Nat} {s : σ} (hw : S.W 0 n s) : N.At p l [0] [0] n s := ⟨fun _ => N.ofW hw, fun _ => N.ofW hw⟩

theorem At.toW {n : Nat} {s : σ} (ha : N.At p l [0] [0] n s) : S.W 0 n s := by
  by_cases hh : p.head.has l = true
  · exact N.toW (ha.1 hh)
  · exact N.toW (ha.2 hh)

variable (N) in
include N in
/-- `as_mut_slice`. -/
theorem mutSlice (hl : p.whole.has l = true) {n : Nat} {s : σ} (hw : S.W 0 n s) :
    ∃ s', runAt R l (p.slotMutSlice 0 n).2.2 s = some s' ∧ S.W 0 (n + 7) s' ∧
      (p.buf.has l = true → S.Own (n + 6) s') := by
  show ∃ s', runAt R l [.retag .excl 0 n p.head, .retag .excl n (n + 1) p.head, .read (n + 1) p.head,
    .retag .excl 0 (n + 2) p.buf, .retag .raw (n + 2) (n + 3) p.buf, .retag .shared n (n + 4) p.head, .read (n + 4) p.head,
    .retag .shared 0 (n + 5) p.buf, .retag .excl (n + 3) (n + 6) p.buf] s = some s' ∧ _
  by_cases hh : p.head.has l = true
  · have hb := head_not_buf hh
    have ha : N.At p l [0] [0] n s := At.ofW hw
    obtain ⟨s1, h1, a1⟩ := ha.exclHead
    obtain ⟨s2, h2, a2⟩ := a1.exclHead
    obtain ⟨s3, h3, a3⟩ := a2.readHead
    obtain ⟨s4, s5, h4, h5, a5⟩ := (a3.popHead.mono (show n + 2 ≤ n + 4 by omega)).lookHead
    refine ⟨s5, ?_, (a5.popHead.mono (show n + 5 ≤ n + 7 by omega)).toW, fun h => absurd h hb⟩
    rw [runAt_cons h1, runAt_cons h2, runAt_cons h3, runAt_cons (miss_retag hb), runAt_cons (miss_retag hb), runAt_cons h4,
      runAt_cons h5, runAt_cons (miss_retag hb), runAt_cons (miss_retag hb)]
    rfl
  · have hb := buf_of_not_head hl hh
    obtain ⟨s1, s2, s3, s4, h1, h2, h3, h4, w, o⟩ := N.through (n + 2) (n + 3) (n + 5) (n + 6) hw (by omega) (by omega)
      (by omega) (by omega)
    refine ⟨s4, ?_, w, fun _ => o⟩
    rw [runAt_cons (miss_retag hh), runAt_cons (miss_retag hh), runAt_cons (miss_read hh),
      runAt_cons ((hit_retag hb).trans h1), runAt_cons ((hit_retag hb).trans h2), runAt_cons (miss_retag hh),
      runAt_cons (miss_read hh), runAt_cons ((hit_retag hb).trans h3), runAt_cons ((hit_retag hb).trans h4)]
    rfl

variable (N) in
include N in
/-- `as_mut_ptr`. -/
theorem pointer (hl : p.whole.has l = true) {n : Nat} {s : σ} (hw : S.W 0 n s) :
    ∃ s', runAt R l (p.slotMutPtr 0 n).2.2 s = some s' ∧ S.W 0 (n + 3) s' ∧
      (p.buf.has l = true → S.Own (n + 2) s') := by
  show ∃ s', runAt R l [.retag .excl 0 n p.head, .read n p.head, .retag .excl 0 (n + 1) p.buf,
    .retag .raw (n + 1) (n + 2) p.buf] s = some s' ∧ _
  by_cases hh : p.head.has l = true
  · have hb := head_not_buf hh
    have ha : N.At p l [0] [0] n s := At.ofW hw
    obtain ⟨s1, h1, a1⟩ := ha.exclHead
    obtain ⟨s2, h2, a2⟩ := a1.readHead
    refine ⟨s2, ?_, (a2.popHead.mono (show n + 1 ≤ n + 3 by omega)).toW, fun h => absurd h hb⟩
    rw [runAt_cons h1, runAt_cons h2, runAt_cons (miss_retag hb), runAt_cons (miss_retag hb)]
    rfl
  · have hb := buf_of_not_head hl hh
    obtain ⟨s1, s2, h1, h2, w, o⟩ := N.point (n + 1) (n + 2) hw (by omega) (by omega)
    refine ⟨s2, ?_, w, fun _ => o⟩
    rw [runAt_cons (miss_retag hh), runAt_cons (miss_read hh), runAt_cons ((hit_retag hb).trans h1),
      runAt_cons ((hit_retag hb).trans h2)]
    rfl

end Nest

namespace Sound
variable {σ : Type} {R : Rules σ} {rule : Loan → Prop} (S : Sound R rule) {p : Place} {l : Nat}

/-- Making a shared reference anywhere. -/
theorem shared_any {r n h : Nat} {s : σ} {g : Region} (hw : S.W r n s) (hh : g.has l = true → h = r ∨ S.See h s) :
    ∃ s', (Event.retag .shared h n g).act R l s = some s' ∧ S.Calm r n (n + 1) s s' ∧ (g.has l = true → S.See n s') := by
  by_cases hg : g.has l = true
  · obtain ⟨s', h1, h2, h3⟩ := S.shared_at hw hg (hh hg)
    exact ⟨s', h1, h2, fun _ => h3⟩
  · exact ⟨s, miss_retag hg, Calm.skip S (Nat.le_succ n) hw, fun h => absurd h hg⟩

/-- Reading by a shared reference anywhere. -/
theorem read_any {r n h : Nat} {s : σ} {g : Region} (hw : S.W r n s) (hh : g.has l = true → S.See h s) :
    ∃ s', (Event.read h g).act R l s = some s' ∧ S.Calm r n n s s' := by
  by_cases hg : g.has l = true
  · exact S.read_calm hw (.inr (hh hg))
  · exact ⟨s, miss_read hg, Calm.skip S (Nat.le_refl n) hw⟩

theorem root_head (h : p.head.has l = true) : 0 = rootAt p l := (if_pos (head_whole h)).symm
theorem root_buf (h : p.buf.has l = true) : 0 = rootAt p l := (if_pos (buf_whole h)).symm

theorem slotLen_at {n h : Nat} {s : σ} (hw : S.W (rootAt p l) n s) (hh : p.head.has l = true → h = rootAt p l ∨ S.See h s) :
    ∃ s', runAt R l (p.slotLen h n).2.2 s = some s' ∧ S.Calm (rootAt p l) n (n + 1) s s' := by
  obtain ⟨s1, h1, c1, e1⟩ := S.shared_any hw hh
  obtain ⟨s2, h2, c2⟩ := S.read_any c1.2.1 e1
  refine ⟨s2, ?_, c1.trans S c2⟩
  show runAt R l [.retag .shared h n p.head, .read n p.head] s = _
  rw [runAt_cons h1, runAt_cons h2]
  rfl

theorem slotCapacity_at {n : Nat} {s : σ} (hw : S.W (rootAt p l) n s) :
    ∃ s', runAt R l (p.slotCapacity 0 n).2.2 s = some s' ∧ S.Calm (rootAt p l) n (n + 2) s s' := by
  obtain ⟨s1, h1, c1, e1⟩ := S.shared_any hw fun h => .inl (root_head h)
  obtain ⟨s2, h2, c2⟩ := S.read_any c1.2.1 e1
  obtain ⟨s3, h3, c3, _⟩ := S.shared_any (g := p.buf) (l := l) c2.2.1 fun h => .inl (root_buf h)
  refine ⟨s3, ?_, (c1.trans S c2).trans S c3⟩
  show runAt R l [.retag .shared 0 n p.head, .read n p.head, .retag .shared 0 (n + 1) p.buf] s = _
  rw [runAt_cons h1, runAt_cons h2, runAt_cons h3]
  rfl

theorem slotPtr_at {n : Nat} {s : σ} (hw : S.W (rootAt p l) n s) :
    ∃ s', runAt R l (p.slotPtr 0 n).2.2 s = some s' ∧ S.Calm (rootAt p l) n (n + 3) s s' ∧
      (p.buf.has l = true → S.See (n + 2) s') := by
  obtain ⟨s1, h1, c1, e1⟩ := S.shared_any hw fun h => .inl (root_head h)
  obtain ⟨s2, h2, c2⟩ := S.read_any c1.2.1 e1
  obtain ⟨s3, h3, c3, e3⟩ := S.shared_any (g := p.buf) (l := l) c2.2.1 fun h => .inl (root_buf h)
  obtain ⟨s4, h4, c4, e4⟩ := S.shared_any (g := p.buf) (l := l) c3.2.1 fun h => .inr (e3 h)
  refine ⟨s4, ?_, ((c1.trans S c2).trans S c3).trans S c4, e4⟩
  show runAt R l [.retag .shared 0 n p.head, .read n p.head, .retag .shared 0 (n + 1) p.buf,
    .retag .shared (n + 1) (n + 2) p.buf] s = _
  rw [runAt_cons h1, runAt_cons h2, runAt_cons h3, runAt_cons h4]
  rfl

theorem slotSlice_at {n : Nat} {s : σ} (k : Nat) (hk : k ≤ p.cap) (hw : S.W (rootAt p l) n s) :
    ∃ s', runAt R l (p.slotSlice k 0 n).2.2 s = some s' ∧ S.Calm (rootAt p l) n (n + 6) s s' ∧
      ((p.items k).has l = true → S.See (n + 5) s') := by
  obtain ⟨s1, h1, c1, e1⟩ := S.shared_any hw fun h => .inl (root_head h)
  obtain ⟨s2, h2, c2, e2⟩ := S.shared_any (g := p.head) (l := l) c1.2.1 fun h => .inr (e1 h)
  obtain ⟨s3, h3, c3⟩ := S.read_any c2.2.1 e2
  obtain ⟨s4, h4, c4, e4⟩ := S.shared_any (g := p.buf) (l := l) c3.2.1 fun h => .inl (root_buf h)
  obtain ⟨s5, h5, c5, e5⟩ := S.shared_any (g := p.buf) (l := l) c4.2.1 fun h => .inr (e4 h)
  have c := (((c1.trans S c2).trans S c3).trans S c4).trans S c5
  obtain ⟨s6, h6, c6⟩ := S.slotLen_at (p := p) (l := l) (h := n) c5.2.1
    fun h => .inr (c5.2.2.1 _ (c4.2.2.1 _ (c3.2.2.1 _ (c2.2.2.1 _ (e1 h)))))
  obtain ⟨s7, h7, c7, e7⟩ := S.shared_any (g := p.items k) (l := l) (h := n + 3) c6.2.1
    fun h => .inr (c6.2.2.1 _ (e5 (items_buf hk h)))
  refine ⟨s7, ?_, (c.trans S c6).trans S c7, e7⟩
  show runAt R l (.retag .shared 0 n p.head :: .retag .shared n (n + 1) p.head :: .read (n + 1) p.head ::
    .retag .shared 0 (n + 2) p.buf :: .retag .shared (n + 2) (n + 3) p.buf :: ((p.slotLen n (n + 4)).2.2 ++
    [.retag .shared (n + 3) (n + 5) (p.items k)])) s = _
  rw [runAt_cons h1, runAt_cons h2, runAt_cons h3, runAt_cons h4, runAt_cons h5, runAt_append, h6, Option.bind_some,
    runAt_cons h7]
  rfl

theorem inputRead_at {r n b pos k : Nat} {s : σ} (hw : S.W r n s) (hb : p.buf.has l = true → S.See b s) :
    ∃ s', runAt R l (p.inputRead b pos k n).2.2 s = some s' ∧ S.Calm r n (p.inputRead b pos k n).2.1 s s' := by
  obtain ⟨s1, h1, c1, _⟩ := S.shared_any (g := p.buf) (l := l) hw fun h => .inr (hb h)
  by_cases hf : pos + k ≤ p.cap
  · rw [inputRead_fit hf]
    obtain ⟨s2, h2, c2, e2⟩ := S.shared_any (g := p.buf) (l := l) c1.2.1 fun h => .inr (c1.2.2.1 _ (hb h))
    obtain ⟨s3, h3, c3, e3⟩ := S.shared_any (g := ⟨p.at_ + pos, k⟩) (l := l) c2.2.1 fun h => .inr (e2 (piece_buf hf h))
    obtain ⟨s4, h4, c4⟩ := S.read_any c3.2.1 e3
    refine ⟨s4, ?_, ((c1.trans S c2).trans S c3).trans S c4⟩
    simp only
    rw [runAt_cons h1, runAt_cons h2, runAt_cons h3, runAt_cons h4]
    rfl
  · rw [inputRead_refused hf]
    refine ⟨s1, ?_, c1⟩
    simp only
    rw [runAt_cons h1]
    rfl

theorem inputReads_at {r b : Nat} : (ks : List Nat) → (pos n : Nat) → (s : σ) → S.W r n s →
    (p.buf.has l = true → S.See b s) →
    ∃ s', runAt R l (p.inputReads b pos ks n).2.2 s = some s' ∧ S.Calm r n (p.inputReads b pos ks n).2.1 s s'
  | [], _, n, s, hw, _ => ⟨s, rfl, Calm.skip S (Nat.le_refl n) hw⟩
  | k :: ks, pos, n, s, hw, hb => by
    obtain ⟨s1, h1, c1⟩ := S.inputRead_at (pos := pos) (k := k) hw hb
    obtain ⟨s2, h2, c2⟩ := inputReads_at ks (if pos + k ≤ p.cap then pos + k else pos) _ s1 c1.2.1
      fun h => c1.2.2.1 _ (hb h)
    refine ⟨s2, ?_, c1.trans S c2⟩
    show runAt R l ((p.inputRead b pos k n).2.2 ++ (p.inputReads b _ ks (p.inputRead b pos k n).2.1).2.2) s = _
    rw [runAt_append, h1, Option.bind_some, h2]

theorem slotRead_at {n : Nat} {s : σ} (ks : List Nat) (hw : S.W (rootAt p l) n s) :
    ∃ s', runAt R l (p.slotRead ks 0 n).2.2 s = some s' ∧ S.Calm (rootAt p l) n (p.slotRead ks 0 n).2.1 s s' := by
  obtain ⟨s1, h1, c1, e1⟩ := S.shared_any hw fun h => .inl (root_head h)
  obtain ⟨s2, h2, c2⟩ := S.read_any c1.2.1 e1
  obtain ⟨s3, h3, c3, e3⟩ := S.shared_any (g := p.buf) (l := l) c2.2.1 fun h => .inl (root_buf h)
  obtain ⟨s4, h4, c4⟩ := S.inputReads_at ks 0 (n + 2) s3 c3.2.1 e3
  refine ⟨s4, ?_, ((c1.trans S c2).trans S c3).trans S c4⟩
  show runAt R l (.retag .shared 0 n p.head :: .read n p.head :: .retag .shared 0 (n + 1) p.buf ::
    (p.inputReads (n + 1) 0 ks (n + 2)).2.2) s = _
  rw [runAt_cons h1, runAt_cons h2, runAt_cons h3, h4]

end Sound

end Oct.Alias
