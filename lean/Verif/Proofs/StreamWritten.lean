import Verif.Proofs.StreamBorrows
import Verif.Proofs.IterBorrowsEnded
import Verif.Model.Stream
/-
What calls of streams read and write, and what that ends.
-/
namespace Oct.Alias
open Spec Sound

variable {p : Place} {l : Nat}

theorem span_iff {a n : Nat} : (⟨a, n⟩ : Region).has l = true ↔ a ≤ l ∧ l < a + n := has_iff _ _

theorem stream_written (d : Nat) (o : Owner) (c : StreamCall) (l : Nat) :
    WrittenAt (c.go p d o).2 l ↔ StreamWrites p d o.len c l := by
  cases c with
  | read k =>
    by_cases hf : o.len + k ≤ p.cap
    · simp only [StreamCall.go, if_pos hf, streamRead_fit hf, written_retag, written_read, written_write, written_nil,
        or_false, StreamWrites]
      exact ⟨fun h => ⟨hf, h⟩, fun h => h.2⟩
    · simp only [StreamCall.go, if_neg hf, streamRead_refused hf, written_retag, written_read, written_nil, StreamWrites]
      exact ⟨False.elim, fun h => hf h.1⟩
  | readInto k =>
    by_cases hf : o.len + k ≤ p.cap
    · simp only [StreamCall.go, streamReadInto_fit hf, written_retag, written_read, written_write, written_nil,
        or_false, StreamWrites, ← span_iff]
      exact ⟨fun h => ⟨hf, h.symm⟩, fun h => h.2.symm⟩
    · simp only [StreamCall.go, streamReadInto_refused hf, written_retag, written_read, written_nil, StreamWrites]
      exact ⟨False.elim, fun h => hf h.1⟩
  | write k =>
    by_cases hf : o.len + k ≤ p.cap
    · simp only [StreamCall.go, streamWrite_fit hf, written_retag, written_read, written_write, written_nil,
        or_false, StreamWrites, ← span_iff]
      exact ⟨fun h => ⟨hf, h.symm⟩, fun h => h.2.symm⟩
    · simp only [StreamCall.go, streamWrite_refused hf, written_retag, written_read, written_nil, StreamWrites]
      exact ⟨False.elim, fun h => hf h.1⟩
  | get k i =>
    refine ⟨fun ⟨t, r, hm, _⟩ => ?_, fun h => h.elim⟩
    have hm : Event.write t r ∈ (match o.held[k]? with
      | some x => (o, [Event.read x.tag ⟨x.r.lo + i, 1⟩])
      | none => (o, [])).2 := hm
    split at hm
    · cases List.mem_singleton.mp hm
    · cases hm
  | asPtr =>
    show WrittenAt [.retag .shared 0 o.next p.head, .read o.next p.head, .retag .shared 0 (o.next + 1) p.buf,
      .retag .shared (o.next + 1) (o.next + 2) p.buf] l ↔ False
    simp only [written_retag, written_read, written_nil]
  | asSlice =>
    show WrittenAt [.retag .shared 0 o.next p.head, .retag .shared o.next (o.next + 1) p.head, .read (o.next + 1) p.head,
      .retag .shared 0 (o.next + 2) p.buf, .retag .shared (o.next + 2) (o.next + 3) p.buf,
      .retag .shared o.next (o.next + 4) p.head, .read (o.next + 4) p.head,
      .retag .shared (o.next + 3) (o.next + 5) (p.items o.len)] l ↔ False
    simp only [written_retag, written_read, written_nil]
  | capacity =>
    show WrittenAt [.retag .shared 0 o.next p.head, .read o.next p.head, .retag .shared 0 (o.next + 1) p.buf] l ↔ False
    simp only [written_retag, written_read, written_nil]
  | position =>
    show WrittenAt [.retag .shared 0 o.next p.head, .read o.next p.head] l ↔ False
    simp only [written_retag, written_read, written_nil]
  | remaining =>
    show WrittenAt [.retag .shared 0 o.next p.head, .read o.next p.head, .retag .shared 0 (o.next + 1) p.buf,
      .retag .shared 0 (o.next + 2) p.head, .read (o.next + 2) p.head] l ↔ False
    simp only [written_retag, written_read, written_nil]

theorem stream_reads (d : Nat) (o : Owner) (c : StreamCall) (hc : ∀ h i, c ≠ .get h i) (l : Nat) :
    ReadAt (c.go p d o).2 l ↔ StreamReads p d o.len c l := by
  cases c with
  | read k =>
    by_cases hf : o.len + k ≤ p.cap
    · simp only [StreamCall.go, if_pos hf, streamRead_fit hf, read_retag, read_read, read_write, read_nil,
        or_false, StreamReads]
    · simp only [StreamCall.go, if_neg hf, streamRead_refused hf, read_retag, read_read, read_nil, or_false, StreamReads]
  | readInto k =>
    by_cases hf : o.len + k ≤ p.cap
    · simp only [StreamCall.go, streamReadInto_fit hf, read_retag, read_read, read_write, read_nil,
        or_false, StreamReads, ← span_iff, hf, true_and, ← or_assoc, or_self]
    · simp only [StreamCall.go, streamReadInto_refused hf, read_retag, read_read, read_nil, or_false, StreamReads, hf,
        false_and, or_self]
  | write k =>
    by_cases hf : o.len + k ≤ p.cap
    · simp only [StreamCall.go, streamWrite_fit hf, read_retag, read_read, read_write, read_nil,
        or_false, StreamReads, ← span_iff, hf, true_and]
    · simp only [StreamCall.go, streamWrite_refused hf, read_retag, read_read, read_nil, or_false, StreamReads, hf,
        false_and]
  | get k i => exact absurd rfl (hc k i)
  | asPtr =>
    show ReadAt [.retag .shared 0 o.next p.head, .read o.next p.head, .retag .shared 0 (o.next + 1) p.buf,
      .retag .shared (o.next + 1) (o.next + 2) p.buf] l ↔ _ ∨ False
    simp only [read_retag, read_read, read_nil]
  | asSlice =>
    show ReadAt [.retag .shared 0 o.next p.head, .retag .shared o.next (o.next + 1) p.head, .read (o.next + 1) p.head,
      .retag .shared 0 (o.next + 2) p.buf, .retag .shared (o.next + 2) (o.next + 3) p.buf,
      .retag .shared o.next (o.next + 4) p.head, .read (o.next + 4) p.head,
      .retag .shared (o.next + 3) (o.next + 5) (p.items o.len)] l ↔ _ ∨ False
    simp only [read_retag, read_read, read_nil, or_false, or_self]
  | capacity =>
    show ReadAt [.retag .shared 0 o.next p.head, .read o.next p.head, .retag .shared 0 (o.next + 1) p.buf] l ↔ _ ∨ False
    simp only [read_retag, read_read, read_nil]
  | position =>
    show ReadAt [.retag .shared 0 o.next p.head, .read o.next p.head] l ↔ _ ∨ False
    simp only [read_retag, read_read, read_nil]
  | remaining =>
    show ReadAt [.retag .shared 0 o.next p.head, .read o.next p.head, .retag .shared 0 (o.next + 1) p.buf,
      .retag .shared 0 (o.next + 2) p.head, .read (o.next + 2) p.head] l ↔ _ ∨ False
    simp only [read_retag, read_read, read_nil, or_false, or_self]

theorem behind_buf {d k : Nat} (hd : Behind p d) (hl : p.buf.has l = true) : ¬ (⟨d, k⟩ : Region).has l = true :=
  behind_miss (buf_whole hl) hd

theorem streamWrite_inward {d k : Nat} (o : Owner) (hd : Behind p d) (hf : o.len + k ≤ p.cap) (hl : p.buf.has l = true) :
    Inward o.next l (StreamCall.go p d o (.write k)).2 := by
  have hh := buf_not_head hl
  have hm := behind_buf (k := k) hd hl
  simp only [StreamCall.go, streamWrite_fit hf]
  intro e he hr
  simp only [List.mem_cons, List.not_mem_nil, or_false] at he
  rcases he with rfl | rfl | rfl | rfl | rfl | rfl | rfl | rfl | rfl
  · exact absurd hr hh
  · exact absurd hr hm
  · exact absurd hr hh
  · exact ⟨.inl rfl, by omega⟩
  · exact ⟨.inl rfl, by omega⟩
  · exact ⟨by omega, by omega⟩
  · exact absurd hr hm
  · exact (show o.next ≤ o.next + 4 by omega)
  · exact absurd hr hh

theorem stream_then_get (p : Place) (d : Nat) (o : Owner) (k : Nat) {h : Nat} {x : Held} (hx : o.held[h]? = some x) (i : Nat) :
    streamEvents p d o [.write k, .get h i] =
      (StreamCall.go p d o (.write k)).2 ++ .read x.tag ⟨x.r.lo + i, 1⟩ :: [] := by
  have hx' : (StreamCall.go p d o (.write k)).1.held[h]? = some x := hx
  show (StreamCall.go p d o (.write k)).2 ++
    ((StreamCall.go p d (StreamCall.go p d o (.write k)).1 (.get h i)).2 ++ []) = _
  generalize (StreamCall.go p d o (.write k)).1 = o2 at hx'
  generalize (StreamCall.go p d o (.write k)).2 = es
  simp only [StreamCall.go, hx']
  rfl

/-- Under Stacked Borrows, `write` ends all that was returned before. -/
theorem stack_streamWrite {d k g : Nat} {o : Owner} {s : List Item} (hw : stackW 0 o.next s) (hd : Behind p d)
    (hf : o.len + k ≤ p.cap) (hl : p.buf.has l = true) (hg : g < o.next) (hg0 : g ≠ 0) :
    runAt Stacked l ((StreamCall.go p d o (.write k)).2 ++ .read g ⟨l, 1⟩ :: []) s = none := by
  have hh := buf_not_head hl
  have hm := behind_buf (k := k) hd hl
  have hw' : stackedSound.W 0 (o.next + 2) s := stackedSound.mono (by omega) hw
  obtain ⟨s1, h1, c1, _⟩ := stackedSound.shared_at (h := 0) hw' hl (.inl rfl)
  simp only [StreamCall.go, streamWrite_fit hf, List.cons_append]
  rw [runAt_cons (miss_retag hh), runAt_cons (miss_retag hm), runAt_cons (miss_read hh), runAt_cons h1]
  refine stack_taken (t := o.next + 3) (es := [.retag .raw (o.next + 3) (o.next + 4) p.buf, .read (o.next + 1) ⟨d, k⟩,
    .write (o.next + 4) ⟨p.at_ + o.len, k⟩, .write o.next p.head]) c1.2.1 hl (fun e he hr => ?_) (by omega) hg0 []
  simp only [List.mem_cons, List.not_mem_nil, or_false] at he
  rcases he with rfl | rfl | rfl | rfl | rfl
  · exact ⟨.inl rfl, Nat.le_refl _⟩
  · exact ⟨Nat.le_refl _, by omega⟩
  · exact absurd hr hm
  · exact (show o.next + 3 ≤ o.next + 4 by omega)
  · exact absurd hr hh

/-- Under Tree Borrows, `write` keeps what was returned of the octets before. -/
theorem tree_streamWrite {d k q g : Nat} {o : Owner} {s s' : List Node} (hw : treeW 0 o.next s) (hd : Behind p d)
    (hq : q ≤ o.len) (hp : o.len ≤ p.cap) (hl : (p.items q).has l = true) (hs : treeSee g s)
    (hr : runAt Tree l (StreamCall.go p d o (.write k)).2 s = some s') : treeSee g s' := by
  have hb : p.buf.has l = true := items_buf (Nat.le_trans hq hp) hl
  have hh := buf_not_head hb
  have hm := behind_buf (k := k) hd hb
  have hw' : treeW 0 (o.next + 2) s := hw.mono (by omega)
  obtain ⟨s1, h1, w1, _, e1, _⟩ := hw'.shared (hw'.fresh.own hw').see
  have e1 := e1 g hs
  have h1 : (Event.retag .shared 0 (o.next + 2) p.buf).act Tree l s = some s1 := (hit_retag hb).trans h1
  by_cases hf : o.len + k ≤ p.cap
  · have hn : ¬ (⟨p.at_ + o.len, k⟩ : Region).has l = true := by
      rw [has_iff] at *
      simp only [Place.items] at *
      omega
    have own : treeOwn 0 s1 := w1.fresh.own w1
    obtain ⟨x, s0, f1, f2, w2, e2, _, e3, _⟩ := w1.node own.see .reserved
    have h2 : (Event.retag .excl 0 (o.next + 3) p.buf).act Tree l s1
        = some (⟨o.next + 3, [o.next + 3], (o.next + 3) :: x.line, .reserved⟩ :: s0) := by
      refine (hit_retag hb).trans ?_
      show (match find 0 s1 with
        | none => none
        | some x => (treeRead 0 s1).map ((⟨o.next + 3, [o.next + 3], (o.next + 3) :: x.line, .reserved⟩ : Node) :: ·)) = _
      rw [f1, f2]
      rfl
    obtain ⟨s3, h3, _, _, e4, _⟩ := w2.rawOf (h := o.next + 3) (by omega) (P := fun m => m.state.mayRead = true)
      (fun _ _ _ e h => by rw [e]; exact h) (e3 rfl)
    have h3 : (Event.retag .raw (o.next + 3) (o.next + 4) p.buf).act Tree l _ = some s3 := (hit_retag hb).trans h3
    simp only [StreamCall.go, streamWrite_fit hf] at hr
    rw [runAt_cons (miss_retag hh), runAt_cons (miss_retag hm), runAt_cons (miss_read hh), runAt_cons h1, runAt_cons h2,
      runAt_cons h3, runAt_cons (miss_read hm), runAt_cons (miss_write hn), runAt_cons (miss_write hh)] at hr
    cases hr
    exact e4 g (e2 g e1)
  · simp only [StreamCall.go, streamWrite_refused hf] at hr
    rw [runAt_cons (miss_retag hh), runAt_cons (miss_retag hm), runAt_cons (miss_read hh), runAt_cons h1] at hr
    cases hr
    exact e1

theorem tree_streamWrites {d q g : Nat} (hd : Behind p d) : (ks : List Nat) → (o : Owner) → (loans : List (Nat × Bool)) →
    Flow p o loans → q ≤ o.len → (s : List Node) → treeSound.Flows p o loans l s → ((p.items q).has l = true → treeSee g s) →
    ∃ s', runAt Tree l (streamEvents p d o (ks.map .write)) s = some s' ∧
      treeSound.W (rootAt p l) (streamAfter p d o (ks.map .write)).next s' ∧ ((p.items q).has l = true → treeSee g s')
  | [], _, _, _, _, s, hH, hs => ⟨s, rfl, hH.1, hs⟩
  | k :: ks, o, loans, hF, hq, s, hH, hs => by
    obtain ⟨s1, h1, h2⟩ := treeNest.streamWrite_at hd k s hH
    obtain ⟨hF', hlen⟩ := hF.step (d := d) (.write k)
    have hq' : q ≤ (StreamCall.go p d o (.write k)).1.len := by
      rw [hlen]
      simp only [streamPosAfter]
      split <;> omega
    obtain ⟨s2, h3, h4, h5⟩ := tree_streamWrites hd ks _ _ hF' hq' s1 h2 fun hl => by
      have hw := hH.1
      rw [← root_buf (items_buf (Nat.le_trans hq hF.pos) hl)] at hw
      exact tree_streamWrite hw hd hq hF.pos hl (hs hl) h1
    refine ⟨s2, ?_, h4, h5⟩
    show runAt Tree l ((StreamCall.go p d o (.write k)).2 ++ streamEvents p d _ (ks.map .write)) s = _
    rw [runAt_append, h1]
    exact h3

theorem writes_held_same (p : Place) (d : Nat) : (ks : List Nat) → (o : Owner) →
    (streamAfter p d o (ks.map .write)).held = o.held
  | [], _ => rfl
  | _ :: ks, _ => writes_held_same p d ks _

theorem get_events (p : Place) (d : Nat) {o : Owner} {h : Nat} {x : Held} (hx : o.held[h]? = some x) (i : Nat) :
    streamEvents p d o [.get h i] = [.read x.tag ⟨x.r.lo + i, 1⟩] := by
  show (StreamCall.go p d o (.get h i)).2 ++ [] = _
  simp only [StreamCall.go, hx]
  rfl

theorem slice_held (p : Place) (d : Nat) (o : Owner) (ks : List Nat) :
    (streamAfter p d (StreamCall.go p d o .asSlice).1 (ks.map .write)).held[o.held.length]?
      = some ⟨o.next + 5, p.items o.len⟩ := by
  rw [writes_held_same]
  show (o.held ++ [_])[o.held.length]? = _
  rw [List.getElem?_append_right (Nat.le_refl _), Nat.sub_self]
  rfl

/-- After `as_slice` and whatever is written, its octets may still be read. -/
theorem tree_slice_from {d : Nat} (hd : Behind p d) {o : Owner} {loans : List (Nat × Bool)} (hF : Flow p o loans)
    (ks : List Nat) (i : Nat) (hi : i < o.len) {s0 : List Node} (hH : treeSound.Flows p o loans l s0) :
    ∃ s', runAt Tree l (streamEvents p d o (.asSlice :: (ks.map .write ++ [.get o.held.length i]))) s0 = some s' := by
  obtain ⟨s1, h1, c1, e1⟩ := treeSound.slotSlice_at o.len hF.pos hH.1
  have hF1 := (hF.step (d := d) .asSlice).1
  have hH1 : treeSound.Flows p (StreamCall.go p d o .asSlice).1 (loans ++ [(o.len, true)]) l s1 :=
    ⟨c1.2.1, treeSound.seen_add hF.same (treeSound.seen_on hH.2 c1.2.2.1) e1⟩
  obtain ⟨s2, h2, w2, e2⟩ := tree_streamWrites (q := o.len) (g := o.next + 5) hd ks _ _ hF1 (Nat.le_refl _) s1 hH1 e1
  obtain ⟨s3, h3, _⟩ := treeSound.read_any (h := o.next + 5) (g := ⟨p.at_ + i, 1⟩) (l := l) w2 fun h => e2 (by
    rw [has_iff] at *
    simp only [Place.items] at *
    omega)
  refine ⟨s3, ?_⟩
  have e : streamEvents p d o (.asSlice :: (ks.map .write ++ [.get o.held.length i])) =
      (p.slotSlice o.len 0 o.next).2.2 ++ (streamEvents p d (StreamCall.go p d o .asSlice).1 (ks.map .write) ++
        [.read (o.next + 5) ⟨p.at_ + i, 1⟩]) := by
    have g : streamEvents p d (streamAfter p d (StreamCall.go p d o .asSlice).1 (ks.map .write)) [.get o.held.length i] =
        [.read (o.next + 5) ⟨p.at_ + i, 1⟩] := get_events p d (slice_held p d o ks) i
    rw [← g, ← Nest.streamEvents_append]
    rfl
  rw [e, runAt_append, h1, Option.bind_some, runAt_append, h2, Option.bind_some, runAt_cons h3]
  rfl

theorem tree_slice_kept {d : Nat} (hd : Behind p d) {cs : List StreamCall} (hc : StreamChecked p.cap 0 [] cs)
    (ks : List Nat) (i : Nat) (hi : i < (streamAfter p d (Owner.new 0) cs).len) :
    Defined Tree p (streamEvents p d (Owner.new 0)
      (cs ++ .asSlice :: (ks.map .write ++ [.get (streamAfter p d (Owner.new 0) cs).held.length i]))) := by
  obtain ⟨loans, hF, hrun⟩ := treeNest.stream_run hd cs (Owner.new 0) [] (Nest.flow_new p) hc
  intro l
  obtain ⟨s0, h0, hH⟩ := hrun l _ (Nest.flows_new treeSound p l)
  obtain ⟨s1, h1⟩ := tree_slice_from (l := l) hd hF ks i hi hH
  refine ⟨s1, ?_⟩
  rw [Nest.streamEvents_append, runAt_append]
  exact (congrArg (Option.bind · _) h0).trans h1

/-! What streams do by their contents. -/

theorem put_same (out : Output) (data : List Byte) (hf : out.pos + data.length ≤ out.buf.length) (j : Nat)
    (hj : ¬ (out.pos ≤ j ∧ j < out.pos + data.length)) : (out.put data).buf[j]? = out.buf[j]? := by
  show (out.buf.take out.pos ++ data ++ out.buf.drop (out.pos + data.length))[j]? = _
  have h1 : (out.buf.take out.pos).length = out.pos := by
    rw [List.length_take]
    omega
  by_cases h : j < out.pos
  · rw [List.append_assoc, List.getElem?_append_left (by omega), List.getElem?_take_of_lt h]
  · rw [List.getElem?_append_right (by rw [List.length_append]; omega), List.getElem?_drop, List.length_append, h1]
    congr 1
    omega

/-! Reading only. -/

theorem input_checked (cap : Nat) : (cs : List StreamCall) → (pos : Nat) → (sizes : List Nat) → (∀ c ∈ cs, OfInput c) →
    (∀ a h i b, cs = a ++ .get h i :: b → ∃ n, (sizes ++ readSizes cap pos a)[h]? = some n ∧ i < n) →
    StreamChecked cap pos (sizes.map fun n => (n, true)) cs
  | [], _, _, _, _ => trivial
  | c :: cs, pos, sizes, hi, hg => by
    have hcs := fun c hc => hi c (.tail _ hc)
    cases c with
    | read k =>
      refine ⟨trivial, ?_⟩
      by_cases hf : pos + k ≤ cap
      · have := input_checked cap cs (pos + k) (sizes ++ [k]) hcs fun a h i b e => by
          have := hg (.read k :: a) h i b (by rw [e]; rfl)
          simpa only [readSizes, if_pos hf, List.append_assoc, List.singleton_append] using this
        simp only [streamPosAfter, streamLoansAfter, if_pos hf]
        simpa using this
      · have := input_checked cap cs pos sizes hcs fun a h i b e => by
          have := hg (.read k :: a) h i b (by rw [e]; rfl)
          simpa only [readSizes, if_neg hf] using this
        simp only [streamPosAfter, streamLoansAfter, if_neg hf]
        exact this
    | readInto k => exact ⟨trivial, input_checked cap cs _ sizes hcs fun a h i b e =>
        hg (.readInto k :: a) h i b (by rw [e]; rfl)⟩
    | capacity => exact ⟨trivial, input_checked cap cs _ sizes hcs fun a h i b e =>
        hg (.capacity :: a) h i b (by rw [e]; rfl)⟩
    | position => exact ⟨trivial, input_checked cap cs _ sizes hcs fun a h i b e =>
        hg (.position :: a) h i b (by rw [e]; rfl)⟩
    | remaining => exact ⟨trivial, input_checked cap cs _ sizes hcs fun a h i b e =>
        hg (.remaining :: a) h i b (by rw [e]; rfl)⟩
    | get k j =>
      refine ⟨?_, input_checked cap cs _ sizes hcs fun a h i b e => hg (.get k j :: a) h i b (by rw [e]; rfl)⟩
      obtain ⟨n, h1, h2⟩ := hg [] k j cs rfl
      rw [show sizes ++ readSizes cap pos [] = sizes from List.append_nil _] at h1
      exact ⟨n, by rw [List.getElem?_map, h1]; rfl, h2⟩
    | write k => exact (hi _ (.head _)).elim
    | asPtr => exact (hi _ (.head _)).elim
    | asSlice => exact (hi _ (.head _)).elim

end Oct.Alias
