import Verif.Spec.Client
import Verif.Proofs.Memory
/- Lemmas for C112: programs in safe Rust that use streams. -/
namespace Oct
open Spec Mem
set_option linter.unusedVariables false

theorem setAt_self {α : Type} (f : Nat → α) (k : Nat) (x : α) : setAt f k x k = x := if_pos rfl

theorem setAt_ne {α : Type} (f : Nat → α) {k k' : Nat} (x : α) (h : k' ≠ k) : setAt f k x k' = f k' :=
  if_neg h

theorem RegionsApart.symm {r s : Region} (h : RegionsApart r s) : RegionsApart s r := by
  unfold RegionsApart at *
  rcases h with h | h | h | h | h
  · exact .inr (.inl h)
  · exact .inl h
  · exact .inr (.inr (.inl (Ne.symm h)))
  · exact .inr (.inr (.inr (.inr h)))
  · exact .inr (.inr (.inr (.inl h)))

/-- Part of a region. -/
theorem RegionsApart.part {r s : Region} (h : RegionsApart r s) (lo len : Nat) (hl : lo + len ≤ r.len) :
    RegionsApart ⟨r.buf, r.lo + lo, len⟩ s := by
  unfold RegionsApart at *
  simp only
  by_cases h0 : len = 0
  · exact .inl h0
  rcases h with h | h | h | h | h
  · omega
  · exact .inr (.inl h)
  · exact .inr (.inr (.inl h))
  · exact .inr (.inr (.inr (.inl (by omega))))
  · exact .inr (.inr (.inr (.inr (by omega))))

theorem content_length {c : Client} {r : Region} (h : InBuffer c r) : (c.content r).length = r.len := by
  unfold InBuffer at h
  unfold Client.content
  rw [List.length_take, List.length_drop]
  omega

theorem slice_apart {m : RawClient} {c : Client} (hs : ShowsClient m c) {r s : Region}
    (h : RegionsApart r s) : Apart (m.slice r).ptr (m.slice r).len (m.slice s).ptr (m.slice s).len := by
  unfold Apart RegionsApart at *
  simp only [RawClient.slice]
  rcases h with h | h | h | h | h
  · exact .inl h
  · exact .inr (.inl h)
  · exact .inr (.inr (.inl (fun e => h (hs.base _ _ e))))
  · exact .inr (.inr (.inr (.inl h)))
  · exact .inr (.inr (.inr (.inr h)))

theorem holds_region {m : RawClient} {c : Client} (hs : ShowsClient m c) {r : Region}
    (h : InBuffer c r) : Holds m.mem (m.slice r) (c.content r) := by
  refine ⟨(content_length h).symm, ?_⟩
  by_cases h0 : r.len = 0
  · simp only [RawClient.slice, h0, Client.content, List.take_zero]
    rfl
  · refine (load_some h0).mpr ⟨_, hs.bufs r.buf, ?_, ?_⟩
    · rw [List.length_map]; exact h
    · simp only [Client.content, List.map_take, List.map_drop, RawClient.slice]

/-- What a buffer is after a region of it has changed. -/
theorem splice_shows {m m' : Mem Byte} {a lo n : Nat} {l d : List Byte} (h0 : m a = some (l.map some))
    (hw : lo + n ≤ l.length) (ho : OnlyIn ⟨a, lo⟩ n m m')
    (hd : m'.load ⟨a, lo⟩ n = some (d.map some)) :
    m' a = some ((l.take lo ++ d ++ l.drop (lo + d.length)).map some) := by
  have hdl : d.length = n := by
    have := load_length hd
    rwa [List.length_map] at this
  by_cases hn : n = 0
  · rw [ho.other (fun h => absurd hn h), h0]
    have : d = [] := List.eq_nil_of_length_eq_zero (hdl.trans hn)
    subst this
    simp
  · have h1 := ho.1 a
    rw [h0] at h1
    cases hc : m' a with
    | none => rw [hc] at h1; exact nomatch h1
    | some c =>
      rw [hc] at h1
      have hl : c.length = l.length := by simpa using Option.some.inj h1
      have e1 : c.take lo = (l.take lo).map some := by
        by_cases hz : lo = 0
        · subst hz; simp
        · have := ho.2 ⟨a, 0⟩ lo (.inr (.inr (.inr (.inr (by show 0 + lo ≤ lo; omega)))))
          rw [(load_some hz).mpr ⟨c, hc, by show 0 + lo ≤ _; omega, rfl⟩,
            (load_some hz).mpr ⟨_, h0, by rw [List.length_map]; show 0 + lo ≤ _; omega, rfl⟩] at this
          have := Option.some.inj this
          simpa using this
      have e2 : (c.drop lo).take n = d.map some := by
        obtain ⟨c', hc', -, h⟩ := (load_some hn).mp hd
        rw [show m' a = some c' from hc'] at hc
        cases hc
        exact h.symm
      have e3 : c.drop (lo + n) = (l.drop (lo + n)).map some := by
        by_cases hz : l.length - (lo + n) = 0
        · rw [List.drop_of_length_le (by omega), List.drop_of_length_le (by omega)]; rfl
        · have := ho.2 ⟨a, lo + n⟩ (l.length - (lo + n)) (.inr (.inr (.inr (.inl (by show lo + n ≤ lo + n; omega)))))
          rw [(load_some hz).mpr ⟨c, hc, by show lo + n + _ ≤ _; omega, rfl⟩,
            (load_some hz).mpr ⟨_, h0, by rw [List.length_map]; show lo + n + _ ≤ _; omega, rfl⟩] at this
          have := Option.some.inj this
          rw [List.take_of_length_le (by rw [List.length_drop]; simp only; omega),
            List.take_of_length_le (by rw [List.length_drop, List.length_map]; simp only; omega)] at this
          rw [List.map_drop]
          exact this
      rw [hdl, List.map_append, List.map_append, ← e1, ← e2, ← e3, List.append_assoc]
      congr 1
      rw [show c.drop (lo + n) = (c.drop lo).drop n from by rw [List.drop_drop], List.take_append_drop,
        List.take_append_drop]

/-- The state after a region has changed in memory. -/
theorem put_shows {m : RawClient} {c : Client} (hs : ShowsClient m c) {r : Region} (hw : InBuffer c r)
    {d : List Byte} {m' : Mem Byte} (ho : OnlyIn (m.slice r).ptr r.len m.mem m')
    (hd : m'.load (m.slice r).ptr r.len = some (d.map some)) :
    ShowsClient { m with mem := m' } (c.put r d) := by
  refine ⟨hs.base, fun b => ?_, hs.outs, hs.ins, hs.refs⟩
  show m' (m.base b) = some ((setAt c.bufs r.buf _ b).map some)
  by_cases hb : b = r.buf
  · subst hb
    rw [setAt_self]
    exact splice_shows (hs.bufs r.buf) hw ho hd
  · rw [setAt_ne _ _ hb, ho.other (fun _ e => hb (hs.base _ _ e.symm)), hs.bufs b]

theorem put_length (c : Client) {r : Region} {d : List Byte} (hw : InBuffer c r) (hd : d.length = r.len)
    (b : Nat) : ((c.put r d).bufs b).length = (c.bufs b).length := by
  show (setAt c.bufs r.buf _ b).length = _
  by_cases hb : b = r.buf
  · subst hb
    rw [setAt_self]
    unfold InBuffer at hw
    simp only [List.length_append, List.length_take, List.length_drop]
    omega
  · rw [setAt_ne _ _ hb]

theorem put_valid {c : Client} (hv : Valid c) {r : Region} {d : List Byte} (hw : InBuffer c r)
    (hd : d.length = r.len) : Valid (c.put r d) := by
  have e : ∀ s, InBuffer c s → InBuffer (c.put r d) s := fun s h => by
    unfold InBuffer at *
    rw [put_length c (show r.lo + r.len ≤ _ from hw) hd]
    exact h
  exact ⟨fun k h hk => ⟨e _ (hv.outs k h hk).1, (hv.outs k h hk).2⟩,
    fun k h hk => ⟨e _ (hv.ins k h hk).1, (hv.ins k h hk).2⟩,
    fun j s hj => e _ (hv.refs j s hj)⟩

/-- Regions apart keep their octets. -/
theorem content_put {c : Client} {r s : Region} {d : List Byte} (hw : InBuffer c r)
    (hd : d.length = r.len) (h : RegionsApart r s) : (c.put r d).content s = c.content s := by
  unfold Client.content
  show (((setAt c.bufs r.buf _ s.buf).drop s.lo).take s.len) = _
  by_cases hb : s.buf = r.buf
  · rw [hb, setAt_self]
    unfold RegionsApart at h
    unfold InBuffer at hw
    apply List.ext_getElem?
    intro i
    simp only [List.getElem?_append, List.getElem?_take, List.getElem?_drop, List.length_append,
      List.length_take]
    by_cases hi : i < s.len
    · rw [if_pos hi, if_pos hi]
      rcases h with h | h | h | h | h
      · have : d.length = 0 := hd.trans h
        split
        · split
          · rw [if_pos (by omega)]
          · omega
        · congr 1; omega
      · omega
      · exact absurd hb.symm h
      · rw [if_neg (by omega)]
        congr 1; omega
      · rw [if_pos (by omega), if_pos (by omega), if_pos (by omega)]
    · rw [if_neg hi, if_neg hi]
  · rw [setAt_ne _ _ hb]

theorem setAt_some {α : Type} {f : Nat → Option α} {k k' : Nat} {x y : α}
    (h : setAt f k (some x) k' = some y) : (k' = k ∧ y = x) ∨ k' ≠ k ∧ f k' = some y := by
  by_cases hk : k' = k
  · subst hk
    rw [setAt_self] at h
    exact .inl ⟨rfl, (Option.some.inj h).symm⟩
  · rw [setAt_ne _ _ hk] at h
    exact .inr ⟨hk, h⟩

/-- A stream for output that moves on. -/
theorem Valid.moveOut {c : Client} (hv : Valid c) {k : Nat} {h : Handle} (hk : c.outs k = some h)
    {pos : Nat} (hp : pos ≤ h.region.len) :
    Valid { c with outs := setAt c.outs k (some ⟨h.region, pos⟩) } := by
  have e : ∀ k' h', setAt c.outs k (some ⟨h.region, pos⟩) k' = some h' →
      ∃ h0, c.outs k' = some h0 ∧ h0.region = h'.region ∧ (h'.pos = pos ∧ h'.region = h.region ∨ h0 = h') := by
    intro k' h' hh
    by_cases hkk : k' = k
    · subst hkk
      rw [setAt_self] at hh
      cases hh
      exact ⟨h, hk, rfl, .inl ⟨rfl, rfl⟩⟩
    · rw [setAt_ne _ _ hkk] at hh
      exact ⟨h', hh, rfl, .inr rfl⟩
  refine ⟨fun k' h' hh => ?_, hv.ins, hv.refs⟩
  obtain ⟨h0, h1, h2, h3⟩ := e k' h' hh
  have hv0 := hv.outs k' h0 h1
  refine ⟨h2 ▸ hv0.1, ?_, fun k2 hx hne hh2 => ?_, h2 ▸ hv0.2.2.2⟩
  · rcases h3 with h3 | h3
    · rw [h3.1, h3.2]; exact hp
    · exact h3 ▸ hv0.2.1
  · obtain ⟨h4, h5, h6, -⟩ := e k2 hx hh2
    rw [← h6, ← h2]
    exact hv0.2.2.1 k2 h4 hne h5

/-- A stream for input that moves on. -/
theorem Valid.moveIn {c : Client} (hv : Valid c) {k : Nat} {h : Handle} (hk : c.ins k = some h)
    {pos : Nat} (hp : pos ≤ h.region.len) :
    Valid { c with ins := setAt c.ins k (some ⟨h.region, pos⟩) } := by
  have e : ∀ k' h', setAt c.ins k (some ⟨h.region, pos⟩) k' = some h' →
      ∃ h0, c.ins k' = some h0 ∧ h0.region = h'.region ∧ (h'.pos = pos ∧ h'.region = h.region ∨ h0 = h') := by
    intro k' h' hh
    by_cases hkk : k' = k
    · subst hkk
      rw [setAt_self] at hh
      cases hh
      exact ⟨h, hk, rfl, .inl ⟨rfl, rfl⟩⟩
    · rw [setAt_ne _ _ hkk] at hh
      exact ⟨h', hh, rfl, .inr rfl⟩
  refine ⟨fun k' h' hh => ⟨(hv.outs k' h' hh).1, (hv.outs k' h' hh).2.1, (hv.outs k' h' hh).2.2.1,
    fun k2 hx hh2 => ?_, (hv.outs k' h' hh).2.2.2.2⟩, fun k' h' hh => ?_, hv.refs⟩
  · obtain ⟨h0, h1, h2, h3⟩ := e k2 hx hh2
    rw [← h2]
    exact (hv.outs k' h' hh).2.2.2.1 k2 h0 h1
  · obtain ⟨h0, h1, h2, h3⟩ := e k' h' hh
    have hv0 := hv.ins k' h0 h1
    refine ⟨h2 ▸ hv0.1, ?_⟩
    rcases h3 with h3 | h3
    · rw [h3.1, h3.2]; exact hp
    · exact h3 ▸ hv0.2

/-- One more slice. -/
theorem Valid.addRef {c : Client} (hv : Valid c) {j : Nat} {r : Region} (hw : InBuffer c r)
    (hm : NotMut c r) : Valid { c with refs := setAt c.refs j (some r) } := by
  refine ⟨fun k h hh => ⟨(hv.outs k h hh).1, (hv.outs k h hh).2.1, (hv.outs k h hh).2.2.1,
    (hv.outs k h hh).2.2.2.1, fun j' s hs => ?_⟩, hv.ins, fun j' s hs => ?_⟩
  · rcases setAt_some hs with ⟨rfl, rfl⟩ | ⟨-, hs⟩
    · exact RegionsApart.symm (hm k h (fun e => nomatch e) hh)
    · exact (hv.outs k h hh).2.2.2.2 j' s hs
  · rcases setAt_some hs with ⟨rfl, rfl⟩ | ⟨-, hs⟩
    · exact hw
    · exact hv.refs j' s hs

/-- One more stream for input. -/
theorem Valid.addIn {c : Client} (hv : Valid c) {k : Nat} {r : Region} (hw : InBuffer c r)
    (hm : NotMut c r) : Valid { c with ins := setAt c.ins k (some ⟨r, 0⟩) } := by
  refine ⟨fun k' h hh => ⟨(hv.outs k' h hh).1, (hv.outs k' h hh).2.1, (hv.outs k' h hh).2.2.1,
    fun j' s hs => ?_, (hv.outs k' h hh).2.2.2.2⟩, fun j' s hs => ?_, hv.refs⟩
  · rcases setAt_some hs with ⟨rfl, rfl⟩ | ⟨-, hs⟩
    · exact RegionsApart.symm (hm k' h (fun e => nomatch e) hh)
    · exact (hv.outs k' h hh).2.2.2.1 j' s hs
  · rcases setAt_some hs with ⟨rfl, rfl⟩ | ⟨-, hs⟩
    · exact ⟨hw, Nat.zero_le _⟩
    · exact hv.ins j' s hs

/-- One more stream for output. -/
theorem Valid.addOut {c : Client} (hv : Valid c) {k : Nat} {r : Region} (hw : InBuffer c r)
    (hm : NotMut c r) (hs : NotShared c r) :
    Valid { c with outs := setAt c.outs k (some ⟨r, 0⟩) } := by
  have e : ∀ k' h', setAt c.outs k (some (⟨r, 0⟩ : Handle)) k' = some h' →
      (k' = k ∧ h' = ⟨r, 0⟩) ∨ k' ≠ k ∧ c.outs k' = some h' := by
    intro k' h' hh
    by_cases hkk : k' = k
    · subst hkk
      rw [setAt_self] at hh
      cases hh
      exact .inl ⟨rfl, rfl⟩
    · rw [setAt_ne _ _ hkk] at hh
      exact .inr ⟨hkk, hh⟩
  refine ⟨fun k' h' hh => ?_, hv.ins, hv.refs⟩
  rcases e k' h' hh with ⟨rfl, rfl⟩ | ⟨h1, h2⟩
  · refine ⟨hw, Nat.zero_le _, fun k2 h2 hne hh2 => ?_, hs⟩
    rcases e k2 h2 hh2 with ⟨rfl, rfl⟩ | ⟨h3, h4⟩
    · exact absurd rfl hne
    · exact hm k2 h2 (fun e => nomatch e) h4
  · have hv0 := hv.outs k' h' h2
    refine ⟨hv0.1, hv0.2.1, fun k2 h3 hne hh2 => ?_, hv0.2.2.2⟩
    rcases e k2 h3 hh2 with ⟨rfl, rfl⟩ | ⟨h4, h5⟩
    · exact RegionsApart.symm (hm k' h' (fun e => nomatch e) h2)
    · exact hv0.2.2.1 k2 h3 hne h5

/-- Without some of the borrows. -/
theorem Valid.less {c c' : Client} (hv : Valid c) (hb : c'.bufs = c.bufs)
    (ho : ∀ k h, c'.outs k = some h → c.outs k = some h)
    (hi : ∀ k h, c'.ins k = some h → c.ins k = some h)
    (hr : ∀ k h, c'.refs k = some h → c.refs k = some h) : Valid c' := by
  have hw : ∀ r, InBuffer c r → InBuffer c' r := fun r h => by unfold InBuffer at *; rw [hb]; exact h
  exact ⟨fun k h hh => ⟨hw _ (hv.outs k h (ho k h hh)).1, (hv.outs k h (ho k h hh)).2.1,
      fun k2 h2 hne hh2 => (hv.outs k h (ho k h hh)).2.2.1 k2 h2 hne (ho k2 h2 hh2),
      fun k2 h2 hh2 => (hv.outs k h (ho k h hh)).2.2.2.1 k2 h2 (hi k2 h2 hh2),
      fun k2 h2 hh2 => (hv.outs k h (ho k h hh)).2.2.2.2 k2 h2 (hr k2 h2 hh2)⟩,
    fun k h hh => ⟨hw _ (hv.ins k h (hi k h hh)).1, (hv.ins k h (hi k h hh)).2⟩,
    fun j r hh => hw _ (hv.refs j r (hr j r hh))⟩

theorem setAt_none {α : Type} {f : Nat → Option α} {k k' : Nat} {x : α}
    (h : setAt f k none k' = some x) : f k' = some x := by
  by_cases hk : k' = k
  · subst hk; rw [setAt_self] at h; exact nomatch h
  · rwa [setAt_ne _ _ hk] at h

theorem setAt_map {α β : Type} {f : Nat → Option α} {g : Nat → Option β} {w : α → β}
    (h : ∀ k, g k = (f k).map w) (k : Nat) (x : Option α) (k' : Nat) :
    setAt g k (x.map w) k' = (setAt f k x k').map w := by
  unfold setAt
  split
  · rfl
  · exact h k'

theorem showsOutput {m : RawClient} {c : Client} (hs : ShowsClient m c) (hv : Valid c) {k : Nat}
    {h : Handle} (hk : c.outs k = some h) :
    ShowsOutput m.mem ⟨m.slice h.region, h.pos⟩ (c.output h) :=
  ⟨holds_region hs (hv.outs k h hk).1, rfl,
    by show h.pos ≤ (c.content _).length; rw [content_length (hv.outs k h hk).1]; exact (hv.outs k h hk).2.1⟩

theorem showsInput {m : RawClient} {c : Client} (hs : ShowsClient m c) (hv : Valid c) {k : Nat}
    {h : Handle} (hk : c.ins k = some h) :
    ShowsInput m.mem ⟨m.slice h.region, h.pos⟩ (c.input h) :=
  ⟨holds_region hs (hv.ins k h hk).1, rfl,
    by show h.pos ≤ (c.content _).length; rw [content_length (hv.ins k h hk).1]; exact (hv.ins k h hk).2⟩

theorem writeTo_shows {m : RawClient} {c : Client} (hs : ShowsClient m c) (hv : Valid c) {k : Nat}
    {h : Handle} (hk : c.outs k = some h) {s : RawSlice} {d : List Byte} (hd : Holds m.mem s d)
    (ha : Apart (m.slice h.region).ptr (m.slice h.region).len s.ptr s.len) :
    ∃ m', m.writeTo k ⟨m.slice h.region, h.pos⟩ s = (.ok (c.writeTo k h d).1, m') ∧
      ShowsClient m' (c.writeTo k h d).2 ∧ Valid (c.writeTo k h d).2 := by
  have hw := (hv.outs k h hk).1
  obtain ⟨h1, h2⟩ := RawOutput.write_shows (showsOutput hs hv hk) hd ha
  unfold RawClient.writeTo Client.writeTo
  cases e : (c.output h).write d with
  | mk x O =>
    cases x with
    | error x =>
      rw [(h1 x O e).2]
      exact ⟨m, rfl, hs, hv⟩
    | ok x =>
      obtain ⟨m', e1, e2, e3⟩ := h2 O e
      rw [e1]
      have hl : O.buf.length = h.region.len := e2.1.1.symm
      have hp : O.pos ≤ h.region.len := hl ▸ e2.2.2
      have hfit : h.pos + s.len ≤ h.region.len := by
        have : h.pos + s.len = O.pos := e2.2.1
        omega
      have hpw := put_shows hs hw (e3.mono (p := (m.slice h.region).ptr) (n := h.region.len) h.pos s.len hfit) e2.1.2
      refine ⟨_, rfl, ⟨hs.base, hpw.bufs, ?_, hs.ins, hs.refs⟩, ?_⟩
      · intro k'
        refine Eq.trans ?_ (setAt_map hs.outs k (some ⟨h.region, O.pos⟩) k')
        show setAt m.outs k (some ⟨m.slice h.region, h.pos + s.len⟩) k' = _
        rw [show h.pos + s.len = O.pos from e2.2.1]
        rfl
      · exact Valid.moveOut (put_valid hv hw hl) (show (c.put h.region O.buf).outs k = some h from hk) hp

/-- One step. -/
theorem step_shows {m : RawClient} {c : Client} (hs : ShowsClient m c) (hv : Valid c) {op : ClientOp}
    (ha : Allowed c op) :
    ∃ m', m.step op = (.ok (c.step op).1, m') ∧ ShowsClient m' (c.step op).2 ∧ Valid (c.step op).2 := by
  cases op with
  | openOut k r =>
    exact ⟨_, rfl, ⟨hs.base, hs.bufs, setAt_map hs.outs k (some ⟨r, 0⟩), hs.ins, hs.refs⟩,
      Valid.addOut hv ha.2.1 ha.2.2.1 ha.2.2.2⟩
  | openIn k r =>
    exact ⟨_, rfl, ⟨hs.base, hs.bufs, hs.outs, setAt_map hs.ins k (some ⟨r, 0⟩), hs.refs⟩,
      Valid.addIn hv ha.2.1 ha.2.2⟩
  | borrow j r =>
    exact ⟨_, rfl, ⟨hs.base, hs.bufs, hs.outs, hs.ins, setAt_map hs.refs j (some r)⟩,
      Valid.addRef hv ha.2.1 ha.2.2⟩
  | sub j lo len j' =>
    obtain ⟨-, r, hr, hl⟩ := ha
    have hw := hv.refs j r hr
    have hm : m.refs j = some (m.slice r) := by rw [hs.refs, hr]; rfl
    unfold RawClient.step Client.step
    simp only [hm, hr]
    rw [add_ok (holds_region hs hw).2 lo (by show lo ≤ r.len; omega)]
    refine ⟨_, rfl, ⟨hs.base, hs.bufs, hs.outs, hs.ins, setAt_map hs.refs j' (some ⟨r.buf, r.lo + lo, len⟩)⟩,
      Valid.addRef hv (by unfold InBuffer at *; simp only; omega) ?_⟩
    intro k h hne hk
    exact RegionsApart.symm (RegionsApart.part ((hv.outs k h hk).2.2.2.2 j r hr) lo len hl)
  | write k j =>
    obtain ⟨⟨h, hk⟩, r, hr⟩ := ha
    have hm : m.refs j = some (m.slice r) := by rw [hs.refs, hr]; rfl
    have hm' : m.outs k = some ⟨m.slice h.region, h.pos⟩ := by rw [hs.outs, hk]; rfl
    unfold RawClient.step Client.step
    simp only [hm, hr, hm', hk]
    exact writeTo_shows hs hv hk (holds_region hs (hv.refs j r hr))
      (slice_apart hs (RegionsApart.symm ((hv.outs k h hk).2.2.2.2 j r hr)))
  | writeFrom k k' =>
    obtain ⟨hne, ⟨h, hk⟩, h', hk'⟩ := ha
    have hm : m.outs k = some ⟨m.slice h.region, h.pos⟩ := by rw [hs.outs, hk]; rfl
    have hm' : m.outs k' = some ⟨m.slice h'.region, h'.pos⟩ := by rw [hs.outs, hk']; rfl
    unfold RawClient.step Client.step
    simp only [hm, hm', hk, hk']
    have hb := showsOutput hs hv hk'
    refine writeTo_shows hs hv hk ⟨?_, ?_⟩ ?_
    · show h'.pos = ((c.content h'.region).take h'.pos).length
      rw [List.length_take, content_length (hv.outs k' h' hk').1]
      have := (hv.outs k' h' hk').2.1
      omega
    · have := load_sub hb.1.2 0 h'.pos (by show 0 + h'.pos ≤ h'.region.len; have := (hv.outs k' h' hk').2.1; omega)
      rw [List.drop_zero, ← List.map_take] at this
      exact this
    · have := (slice_apart hs ((hv.outs k h hk).2.2.1 k' h' (fun e => hne (Option.some.inj e).symm) hk'))
      have := this.sub 0 h'.pos (by show 0 + h'.pos ≤ h'.region.len; have := (hv.outs k' h' hk').2.1; omega)
      exact this.symm
  | look k =>
    obtain ⟨h, hk⟩ := ha
    have hm : m.outs k = some ⟨m.slice h.region, h.pos⟩ := by rw [hs.outs, hk]; rfl
    have hp := (hv.outs k h hk).2.1
    unfold RawClient.step Client.step
    simp only [hm, hk]
    have hb := showsOutput hs hv hk
    have h1 := load_sub hb.1.2 0 h.pos (by show 0 + h.pos ≤ h.region.len; omega)
    rw [List.drop_zero, ← List.map_take] at h1
    have h2 : (⟨m.slice h.region, h.pos⟩ : RawOutput).asSlice m.mem = .ok (c.output h).asSlice :=
      values_of_load h1
    have h3 : (⟨m.slice h.region, h.pos⟩ : RawOutput).remaining = .ok (h.region.len - h.pos) :=
      if_neg (by show ¬ h.region.len < h.pos; omega)
    rw [h2, h3]
    refine ⟨m, ?_, hs, hv⟩
    simp only [Output.position, Output.remaining, Output.capacity, Client.output,
      content_length (hv.outs k h hk).1, RawClient.slice]
  | read k n j =>
    obtain ⟨-, h, hk⟩ := ha
    have hm : m.ins k = some ⟨m.slice h.region, h.pos⟩ := by rw [hs.ins, hk]; rfl
    unfold RawClient.step Client.step
    simp only [hm, hk]
    have hi := showsInput hs hv hk
    obtain ⟨h1, h2⟩ := RawInput.read_shows hi n
    cases e : (c.input h).read n with
    | mk x I =>
      cases x with
      | error x =>
        rw [(h1 x I e).2]
        exact ⟨m, rfl, hs, hv⟩
      | ok d =>
        obtain ⟨s, e1, e2, e3, e4, e5⟩ := h2 d I e
        rw [e1]
        have hl : I.pos ≤ h.region.len := by
          have e6 : (m.slice h.region).len = I.buf.length := e5.1.1
          have e7 := e5.2.2
          have e8 : (m.slice h.region).len = h.region.len := rfl
          omega
        have hp : h.pos + n = I.pos := e5.2.1
        have hsl : s = m.slice ⟨h.region.buf, h.region.lo + h.pos, n⟩ := by
          have hsn : s.len = n := by
            have e9 : d.length = n := by
              have e10 : (c.input h).read n = _ := e
              unfold Input.read at e10
              simp only at e10
              split at e10
              · exact nomatch (Prod.mk.inj e10).1
              · next hlt =>
                have := Except.ok.inj (Prod.mk.inj e10).1
                rw [← this, List.length_take, List.length_drop]
                omega
            exact e2.1.trans e9
          obtain ⟨⟨sa, so⟩, sl⟩ := s
          simp only at e3 e4 hsn
          subst e3 e4 hsn
          rfl
        refine ⟨_, rfl, ⟨hs.base, hs.bufs, hs.outs, ?_, ?_⟩, ?_⟩
        · intro k'
          refine Eq.trans ?_ (setAt_map hs.ins k (some ⟨h.region, I.pos⟩) k')
          show setAt m.ins k (some ⟨m.slice h.region, h.pos + n⟩) k' = _
          rw [hp]
          rfl
        · intro j'
          refine Eq.trans ?_ (setAt_map hs.refs j (some ⟨h.region.buf, h.region.lo + h.pos, n⟩) j')
          rw [hsl]
          rfl
        · refine Valid.addRef (Valid.moveIn hv hk hl) ?_ ?_
          · have := (hv.ins k h hk).1
            unfold InBuffer at this
            show h.region.lo + h.pos + n ≤ (c.bufs h.region.buf).length
            omega
          · intro k' h' hne hk'
            exact RegionsApart.symm (RegionsApart.part ((hv.outs k' h' hk').2.2.2.1 k h hk) h.pos n (by omega))
  | readInto k r =>
    obtain ⟨⟨h, hk⟩, hw, hnm, hns⟩ := ha
    have hm : m.ins k = some ⟨m.slice h.region, h.pos⟩ := by rw [hs.ins, hk]; rfl
    unfold RawClient.step Client.step
    simp only [hm, hk]
    have hi := showsInput hs hv hk
    obtain ⟨h1, h2⟩ := RawInput.readInto_shows hi (holds_region hs hw) (slice_apart hs (hns.1 k h hk))
    cases e : (c.input h).readInto (c.content r) with
    | mk x y =>
      cases y with
      | mk d I =>
        cases x with
        | error x =>
          rw [(h1 x d I e).2.2]
          exact ⟨m, rfl, hs, hv⟩
        | ok x =>
          obtain ⟨m', e1, e2, e3, e4⟩ := h2 d I e
          rw [e1]
          have hl : I.pos ≤ h.region.len := by
            have e6 : (m.slice h.region).len = I.buf.length := e4.1.1
            have e7 := e4.2.2
            have e8 : (m.slice h.region).len = h.region.len := rfl
            omega
          have hp : h.pos + r.len = I.pos := e4.2.1
          have hpw := put_shows hs hw e3 e2.2
          refine ⟨_, rfl, ⟨hs.base, hpw.bufs, hs.outs, ?_, hs.refs⟩, ?_⟩
          · intro k'
            refine Eq.trans ?_ (setAt_map hs.ins k (some ⟨h.region, I.pos⟩) k')
            show setAt m.ins k (some ⟨m.slice h.region, h.pos + r.len⟩) k' = _
            rw [hp]
            rfl
          · exact Valid.moveIn (put_valid hv hw e2.1.symm) (show (c.put r d).ins k = some h from hk) hl
  | lookIn k =>
    obtain ⟨h, hk⟩ := ha
    have hm : m.ins k = some ⟨m.slice h.region, h.pos⟩ := by rw [hs.ins, hk]; rfl
    have hp := (hv.ins k h hk).2
    unfold RawClient.step Client.step
    simp only [hm, hk]
    have h3 : (⟨m.slice h.region, h.pos⟩ : RawInput).remaining = .ok (h.region.len - h.pos) :=
      if_neg (by show ¬ h.region.len < h.pos; omega)
    rw [h3]
    refine ⟨m, ?_, hs, hv⟩
    simp only [Input.position, Input.remaining, Input.capacity, Client.input,
      content_length (hv.ins k h hk).1, RawClient.slice]
  | see j =>
    obtain ⟨r, hr⟩ := ha
    have hm : m.refs j = some (m.slice r) := by rw [hs.refs, hr]; rfl
    unfold RawClient.step Client.step
    simp only [hm, hr]
    rw [values_of_load (holds_region hs (hv.refs j r hr)).2]
    exact ⟨m, rfl, hs, hv⟩
  | set b i x =>
    obtain ⟨hw, -⟩ := ha
    obtain ⟨m', h1, h2, h3⟩ := store_ok (holds_region hs hw).2 0 [some x] (Nat.le_refl 1)
    have hl := content_length hw
    unfold RawClient.step Client.step
    have h1' : m.mem.store ⟨m.base b, i⟩ [some x] = some m' := h1
    simp only [h1']
    refine ⟨_, rfl, put_shows hs hw h3 ?_, put_valid hv hw rfl⟩
    refine h2.trans ?_
    rw [List.take_zero, List.nil_append, List.drop_of_length_le (by rw [List.length_map, hl]; exact Nat.le_refl _)]
    rfl
  | dropOut k =>
    exact ⟨_, rfl, ⟨hs.base, hs.bufs, setAt_map hs.outs k none, hs.ins, hs.refs⟩,
      Valid.less hv rfl (fun _ _ h => setAt_none h) (fun _ _ h => h) (fun _ _ h => h)⟩
  | dropIn k =>
    exact ⟨_, rfl, ⟨hs.base, hs.bufs, hs.outs, setAt_map hs.ins k none, hs.refs⟩,
      Valid.less hv rfl (fun _ _ h => h) (fun _ _ h => setAt_none h) (fun _ _ h => h)⟩
  | dropRef k =>
    exact ⟨_, rfl, ⟨hs.base, hs.bufs, hs.outs, hs.ins, setAt_map hs.refs k none⟩,
      Valid.less hv rfl (fun _ _ h => h) (fun _ _ h => h) (fun _ _ h => setAt_none h)⟩

theorem run_shows (ops : List ClientOp) : ∀ {m : RawClient} {c : Client}, ShowsClient m c → Valid c →
    AllAllowed c ops → ∃ m', m.run ops = (.ok (c.run ops).1, m') ∧ ShowsClient m' (c.run ops).2 ∧
      Valid (c.run ops).2 := by
  induction ops with
  | nil => exact fun hs hv _ => ⟨_, rfl, hs, hv⟩
  | cons op ops ih =>
    intro m c hs hv ha
    obtain ⟨m1, h1, h2, h3⟩ := step_shows hs hv ha.1
    obtain ⟨m2, h4, h5, h6⟩ := ih h2 h3 ha.2
    refine ⟨m2, ?_, h5, h6⟩
    unfold RawClient.run
    rw [h1]
    simp only
    rw [h4]
    rfl

end Oct

namespace Oct
open Spec Mem
set_option linter.unusedVariables false

theorem output_write_length {o o' : Output} {d : List Byte} (hw : o.pos ≤ o.buf.length)
    (h : o.write d = (.ok (), o')) : o'.buf.length = o.buf.length ∧ o'.pos = o.pos + d.length := by
  unfold Output.write at h
  simp only at h
  split at h
  · exact nomatch (Prod.mk.inj h).1
  · have := (Prod.mk.inj h).2
    subst this
    refine ⟨?_, rfl⟩
    simp only [Output.put, List.length_append, List.length_take, List.length_drop]
    omega

theorem writeTo_content {c : Client} (hv : Valid c) {k : Nat} {h : Handle} (hk : c.outs k = some h)
    (d : List Byte) {r : Region} (hr : RegionsApart h.region r) :
    (c.writeTo k h d).2.content r = c.content r := by
  have hw := (hv.outs k h hk).1
  unfold Client.writeTo
  cases e : (c.output h).write d with
  | mk x O =>
    cases x with
    | error x => rfl
    | ok x =>
      have hl := (output_write_length (o := c.output h) (by
        show h.pos ≤ (c.content h.region).length
        rw [content_length hw]; exact (hv.outs k h hk).2.1) e).1
      exact content_put hw (hl.trans (content_length hw)) hr

theorem writeTo_refs (c : Client) (k : Nat) (h : Handle) (d : List Byte) :
    (c.writeTo k h d).2.refs = c.refs ∧ (c.writeTo k h d).2.ins = c.ins ∧
    ∀ k', k' ≠ k → (c.writeTo k h d).2.outs k' = c.outs k' := by
  unfold Client.writeTo
  cases e : (c.output h).write d with
  | mk x O =>
    cases x with
    | error x => exact ⟨rfl, rfl, fun _ _ => rfl⟩
    | ok x => exact ⟨rfl, rfl, fun k' hk => setAt_ne _ _ hk⟩

/-- What a step leaves as it is: the octets of every region that it does not borrow mutably. -/
theorem step_content {c : Client} (hv : Valid c) {op : ClientOp} (ha : Allowed c op) {r : Region}
    (h1 : ∀ k h, c.outs k = some h → ((∃ j, op = .write k j) ∨ ∃ k', op = .writeFrom k k') →
      RegionsApart h.region r)
    (h2 : ∀ k s, op = .readInto k s → RegionsApart s r)
    (h3 : ∀ b i x, op = .set b i x → RegionsApart ⟨b, i, 1⟩ r) :
    (c.step op).2.content r = c.content r := by
  cases op with
  | openOut k r => rfl
  | openIn k r => rfl
  | borrow j r => rfl
  | sub j lo len j' =>
    unfold Client.step
    simp only
    split <;> rfl
  | write k j =>
    unfold Client.step
    simp only
    split
    · next hk hr => exact writeTo_content hv hk _ (h1 _ _ hk (.inl ⟨_, rfl⟩))
    · rfl
  | writeFrom k k' =>
    unfold Client.step
    simp only
    split
    · next hk hr => exact writeTo_content hv hk _ (h1 _ _ hk (.inr ⟨_, rfl⟩))
    · rfl
  | look k =>
    unfold Client.step
    simp only
    split <;> rfl
  | read k n j =>
    unfold Client.step
    simp only
    split
    · rfl
    · split <;> rfl
  | readInto k s =>
    unfold Client.step
    simp only
    split
    · rfl
    · next h hk =>
      split
      · rfl
      · next d i he =>
        refine content_put ha.2.1 ?_ (h2 _ _ rfl)
        unfold Input.readInto at he
        simp only at he
        split at he
        · exact nomatch (Prod.mk.inj he).1
        · next hlt =>
          have := (Prod.mk.inj (Prod.mk.inj he).2).1
          rw [← this, List.length_take, List.length_drop, content_length ha.2.1]
          rw [content_length ha.2.1] at hlt
          have : (c.input h).remaining = (c.input h).buf.length - (c.input h).pos := rfl
          omega
  | lookIn k =>
    unfold Client.step
    simp only
    split <;> rfl
  | see j =>
    unfold Client.step
    simp only
    split <;> rfl
  | set b i x => exact content_put ha.1 rfl (h3 _ _ _ rfl)
  | dropOut k => rfl
  | dropIn k => rfl
  | dropRef j => rfl

/-- A slice stays where it is, with the same octets, until it is dropped. -/
theorem step_ref {c : Client} (hv : Valid c) {op : ClientOp} (ha : Allowed c op) {j : Nat} {r : Region}
    (hr : c.refs j = some r) (hd : op ≠ .dropRef j) :
    (c.step op).2.refs j = some r ∧ (c.step op).2.content r = c.content r := by
  refine ⟨?_, step_content hv ha ?_ ?_ ?_⟩
  · have hne : ∀ j', c.refs j' = none → j ≠ j' := fun j' h e => by
      subst e; rw [hr] at h; exact nomatch h
    cases op with
    | openOut k r => exact hr
    | openIn k r => exact hr
    | borrow j' r => exact (setAt_ne _ _ (hne _ ha.1)).trans hr
    | sub j1 lo len j' =>
      unfold Client.step
      simp only
      split
      · exact hr
      · exact (setAt_ne _ _ (hne _ ha.1)).trans hr
    | write k j =>
      unfold Client.step
      simp only
      split
      · rw [(writeTo_refs _ _ _ _).1]; exact hr
      · exact hr
    | writeFrom k k' =>
      unfold Client.step
      simp only
      split
      · rw [(writeTo_refs _ _ _ _).1]; exact hr
      · exact hr
    | look k =>
      unfold Client.step
      simp only
      split <;> exact hr
    | read k n j' =>
      unfold Client.step
      simp only
      split
      · exact hr
      · split
        · exact hr
        · exact (setAt_ne _ _ (hne _ ha.1)).trans hr
    | readInto k s =>
      unfold Client.step
      simp only
      split
      · exact hr
      · split <;> exact hr
    | lookIn k =>
      unfold Client.step
      simp only
      split <;> exact hr
    | see j =>
      unfold Client.step
      simp only
      split <;> exact hr
    | set b i x => exact hr
    | dropOut k => exact hr
    | dropIn k => exact hr
    | dropRef j' => exact (setAt_ne _ _ (fun e => hd (congrArg _ e.symm))).trans hr
  · intro k h hk _
    exact RegionsApart.symm ((hv.outs k h hk).2.2.2.2 j r hr)
  · rintro k s rfl
    exact RegionsApart.symm (ha.2.2.2.2 j r hr)
  · rintro b i x rfl
    exact RegionsApart.symm (ha.2.2.2 j r hr)

/-- A stream for output is, as a value, the same until it is written to or dropped. -/
theorem step_output {c : Client} (hv : Valid c) {op : ClientOp} (ha : Allowed c op) {k : Nat} {h : Handle}
    (hk : c.outs k = some h) (hw : ∀ j, op ≠ .write k j) (hf : ∀ k', op ≠ .writeFrom k k')
    (hd : op ≠ .dropOut k) :
    (c.step op).2.outs k = some h ∧ (c.step op).2.output h = c.output h := by
  refine ⟨?_, ?_⟩
  · cases op with
    | openOut k' r =>
      exact (setAt_ne _ _ (fun e => by subst e; rw [ha.1] at hk; exact nomatch hk)).trans hk
    | openIn k r => exact hk
    | borrow j' r => exact hk
    | sub j1 lo len j' =>
      unfold Client.step
      simp only
      split <;> exact hk
    | write k' j =>
      unfold Client.step
      simp only
      split
      · rw [(writeTo_refs _ _ _ _).2.2 k (fun e => hw j (e ▸ rfl))]; exact hk
      · exact hk
    | writeFrom k' k'' =>
      unfold Client.step
      simp only
      split
      · rw [(writeTo_refs _ _ _ _).2.2 k (fun e => hf k'' (e ▸ rfl))]; exact hk
      · exact hk
    | look k' =>
      unfold Client.step
      simp only
      split <;> exact hk
    | read k' n j' =>
      unfold Client.step
      simp only
      split
      · exact hk
      · split <;> exact hk
    | readInto k s =>
      unfold Client.step
      simp only
      split
      · exact hk
      · split <;> exact hk
    | lookIn k =>
      unfold Client.step
      simp only
      split <;> exact hk
    | see j =>
      unfold Client.step
      simp only
      split <;> exact hk
    | set b i x => exact hk
    | dropOut k' => exact (setAt_ne _ _ (fun e => hd (congrArg _ e.symm))).trans hk
    | dropIn k => exact hk
    | dropRef j' => exact hk
  · have : (c.step op).2.content h.region = c.content h.region := by
      refine step_content hv ha ?_ ?_ ?_
      · intro k' h' hk' hop
        refine (hv.outs k h hk).2.2.1 k' h' (fun e => ?_) hk'
        cases Option.some.inj e
        rcases hop with ⟨j, hop⟩ | ⟨j, hop⟩
        · exact hw j hop
        · exact hf j hop
      · rintro k' s rfl
        exact RegionsApart.symm (ha.2.2.1 k h (fun e => nomatch e) hk)
      · rintro b i x rfl
        exact RegionsApart.symm (ha.2.1 k h (fun e => nomatch e) hk)
    unfold Client.output
    rw [this]

/-- A stream for input is, as a value, the same until it is read from or dropped. -/
theorem step_input {c : Client} (hv : Valid c) {op : ClientOp} (ha : Allowed c op) {k : Nat} {h : Handle}
    (hk : c.ins k = some h) (hw : ∀ n j, op ≠ .read k n j) (hf : ∀ r, op ≠ .readInto k r)
    (hd : op ≠ .dropIn k) :
    (c.step op).2.ins k = some h ∧ (c.step op).2.input h = c.input h := by
  refine ⟨?_, ?_⟩
  · cases op with
    | openOut k' r => exact hk
    | openIn k' r =>
      exact (setAt_ne _ _ (fun e => by subst e; rw [ha.1] at hk; exact nomatch hk)).trans hk
    | borrow j' r => exact hk
    | sub j1 lo len j' =>
      unfold Client.step
      simp only
      split <;> exact hk
    | write k' j =>
      unfold Client.step
      simp only
      split
      · rw [(writeTo_refs _ _ _ _).2.1]; exact hk
      · exact hk
    | writeFrom k' k'' =>
      unfold Client.step
      simp only
      split
      · rw [(writeTo_refs _ _ _ _).2.1]; exact hk
      · exact hk
    | look k' =>
      unfold Client.step
      simp only
      split <;> exact hk
    | read k' n j' =>
      unfold Client.step
      simp only
      split
      · exact hk
      · split
        · exact hk
        · exact (setAt_ne _ _ (fun e => hw n j' (congrArg (ClientOp.read · n j') e.symm))).trans hk
    | readInto k' s =>
      unfold Client.step
      simp only
      split
      · exact hk
      · split
        · exact hk
        · exact (setAt_ne _ _ (fun e => hf s (congrArg (ClientOp.readInto · s) e.symm))).trans hk
    | lookIn k =>
      unfold Client.step
      simp only
      split <;> exact hk
    | see j =>
      unfold Client.step
      simp only
      split <;> exact hk
    | set b i x => exact hk
    | dropOut k' => exact hk
    | dropIn k' => exact (setAt_ne _ _ (fun e => hd (congrArg _ e.symm))).trans hk
    | dropRef j' => exact hk
  · have : (c.step op).2.content h.region = c.content h.region := by
      refine step_content hv ha ?_ ?_ ?_
      · intro k' h' hk' hop
        exact RegionsApart.symm ((hv.outs k' h' hk').2.2.2.1 k h hk)
      · rintro k' s rfl
        exact RegionsApart.symm (ha.2.2.2.1 k h hk)
      · rintro b i x rfl
        exact RegionsApart.symm (ha.2.2.1 k h hk)
    unfold Client.input
    rw [this]

/-- Steps on values keep borrows valid. -/
theorem step_valid {c : Client} (hv : Valid c) {op : ClientOp} (ha : Allowed c op) :
    Valid (c.step op).2 := by
  have hs : ShowsClient ⟨fun a => some ((c.bufs a).map some), id,
      fun k => (c.outs k).map fun h => ⟨⟨⟨h.region.buf, h.region.lo⟩, h.region.len⟩, h.pos⟩,
      fun k => (c.ins k).map fun h => ⟨⟨⟨h.region.buf, h.region.lo⟩, h.region.len⟩, h.pos⟩,
      fun k => (c.refs k).map fun r => ⟨⟨r.buf, r.lo⟩, r.len⟩⟩ c :=
    ⟨fun _ _ h => h, fun _ => rfl, fun _ => rfl, fun _ => rfl, fun _ => rfl⟩
  obtain ⟨-, -, -, h⟩ := step_shows hs hv ha
  exact h

theorem run_ref (ops : List ClientOp) : ∀ {c : Client}, Valid c → AllAllowed c ops → ∀ {j : Nat} {r : Region},
    c.refs j = some r → .dropRef j ∉ ops →
    (c.run ops).2.refs j = some r ∧ (c.run ops).2.content r = c.content r := by
  induction ops with
  | nil => exact fun _ _ _ _ h _ => ⟨h, rfl⟩
  | cons op ops ih =>
    intro c hv ha j r hr hd
    obtain ⟨h1, h2⟩ := step_ref hv ha.1 hr (fun e => hd (e ▸ List.mem_cons_self))
    obtain ⟨h3, h4⟩ := ih (step_valid hv ha.1) ha.2 h1 (fun e => hd (List.mem_cons_of_mem _ e))
    exact ⟨h3, h4.trans h2⟩

theorem run_output (ops : List ClientOp) : ∀ {c : Client}, Valid c → AllAllowed c ops →
    ∀ {k : Nat} {h : Handle}, c.outs k = some h → (∀ j, .write k j ∉ ops) → (∀ k', .writeFrom k k' ∉ ops) →
    .dropOut k ∉ ops → (c.run ops).2.outs k = some h ∧ (c.run ops).2.output h = c.output h := by
  induction ops with
  | nil => exact fun _ _ _ _ h _ _ _ => ⟨h, rfl⟩
  | cons op ops ih =>
    intro c hv ha k h hk hw hf hd
    obtain ⟨h1, h2⟩ := step_output hv ha.1 hk (fun j e => hw j (e ▸ List.mem_cons_self))
      (fun j e => hf j (e ▸ List.mem_cons_self)) (fun e => hd (e ▸ List.mem_cons_self))
    obtain ⟨h3, h4⟩ := ih (step_valid hv ha.1) ha.2 h1 (fun j e => hw j (List.mem_cons_of_mem _ e))
      (fun j e => hf j (List.mem_cons_of_mem _ e)) (fun e => hd (List.mem_cons_of_mem _ e))
    exact ⟨h3, h4.trans h2⟩

theorem run_input (ops : List ClientOp) : ∀ {c : Client}, Valid c → AllAllowed c ops →
    ∀ {k : Nat} {h : Handle}, c.ins k = some h → (∀ n j, .read k n j ∉ ops) → (∀ r, .readInto k r ∉ ops) →
    .dropIn k ∉ ops → (c.run ops).2.ins k = some h ∧ (c.run ops).2.input h = c.input h := by
  induction ops with
  | nil => exact fun _ _ _ _ h _ _ _ => ⟨h, rfl⟩
  | cons op ops ih =>
    intro c hv ha k h hk hw hf hd
    obtain ⟨h1, h2⟩ := step_input hv ha.1 hk (fun n j e => hw n j (e ▸ List.mem_cons_self))
      (fun j e => hf j (e ▸ List.mem_cons_self)) (fun e => hd (e ▸ List.mem_cons_self))
    obtain ⟨h3, h4⟩ := ih (step_valid hv ha.1) ha.2 h1 (fun n j e => hw n j (List.mem_cons_of_mem _ e))
      (fun j e => hf j (List.mem_cons_of_mem _ e)) (fun e => hd (List.mem_cons_of_mem _ e))
    exact ⟨h3, h4.trans h2⟩

theorem fresh_valid (bufs : Nat → List Byte) : Valid (freshClient bufs) :=
  ⟨fun _ _ h => (nomatch h), fun _ _ h => (nomatch h), fun _ _ h => (nomatch h)⟩

theorem fresh_shows (bufs : Nat → List Byte) : ShowsClient (freshRaw bufs) (freshClient bufs) :=
  ⟨fun _ _ h => h, fun _ => rfl, fun _ => rfl, fun _ => rfl, fun _ => rfl⟩

theorem run_valid (ops : List ClientOp) : ∀ {c : Client}, Valid c → AllAllowed c ops →
    Valid (c.run ops).2 := by
  induction ops with
  | nil => exact fun h _ => h
  | cons op ops ih => exact fun h ha => ih (step_valid h ha.1) ha.2

end Oct
