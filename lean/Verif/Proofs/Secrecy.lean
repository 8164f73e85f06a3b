import Verif.Spec.Secrecy
import Verif.Proofs.Slot
import Verif.Proofs.MemoryTy
import Verif.Proofs.Local
/-
Helper lemmas: what a slot held before does not show.
-/
namespace Oct
open Spec

theorem EncProg.blind : ∀ (p : EncProg) {o o' : Output}, o.WF → o'.WF → o.buf.length = o'.buf.length →
    o.pos = o'.pos → ∃ w r, w.length ≤ o.remaining ∧ p.run o = (r, o.put w) ∧ p.run o' = (r, o'.put w)
  | .stop r, o, o', h, h', _, _ => ⟨[], r, Nat.zero_le _, by rw [Output.put_nil h]; rfl, by rw [Output.put_nil h']; rfl⟩
  | .write d p, o, o', h, h', hl, hp => by
    have hr : o'.buf.length - o'.pos = o.buf.length - o.pos := by rw [hl, hp]
    by_cases hd : o.buf.length - o.pos < d.length
    · refine ⟨[], .panic .shortOutput, Nat.zero_le _, ?_, ?_⟩
      · rw [Output.put_nil h, EncProg.run, Output.write]; simp only [if_pos hd]
      · rw [Output.put_nil h', EncProg.run, Output.write]; simp only [if_pos (hr ▸ hd)]
    · have hd' : d.length ≤ o.remaining := Nat.not_lt.mp hd
      have hd'' : d.length ≤ o'.remaining := by
        have : o'.remaining = o.remaining := hr
        omega
      have e1 : (EncProg.write d p).run o = p.run (o.put d) := by
        rw [EncProg.run, Output.write]; simp only [if_neg hd]
      have e2 : (EncProg.write d p).run o' = p.run (o'.put d) := by
        rw [EncProg.run, Output.write]; simp only [if_neg (hr ▸ hd)]
      have c1 := Output.capacity_put h hd'
      have c2 := Output.capacity_put h' hd''
      obtain ⟨w, r, hw, h1, h2⟩ := p.blind (Output.WF.put h hd') (Output.WF.put h' hd'')
        (by rw [c1, c2]; exact hl) (by show o.pos + _ = o'.pos + _; omega)
      have hrem := Output.remaining_put h hd'
      refine ⟨d ++ w, r, by rw [List.length_append]; omega, ?_, ?_⟩
      · rw [e1, h1, Output.put_put h hd']
      · rw [e2, h2, Output.put_put h' hd'']

theorem Ty.encode_blind (t : Ty) (v : t.Val) {b b' : List Byte} (hl : b.length = b'.length) :
    ∃ w r, w.length ≤ b.length ∧ t.encode v (Output.new b) = (r, (Output.new b).put w) ∧
      t.encode v (Output.new b') = (r, (Output.new b').put w) := by
  obtain ⟨p, hp⟩ := t.encode_isProg v
  obtain ⟨w, r, h1, h2, h3⟩ := p.blind (o := Output.new b) (o' := Output.new b') (Nat.zero_le _) (Nat.zero_le _) hl rfl
  exact ⟨w, r, h1, by rw [← hp]; exact h2, by rw [← hp]; exact h3⟩

/-- Writing a value: the same result and the same octets, whatever the slot held. -/
theorem Slot.write_blind (s s' : Slot) (t : Ty) (v : t.Val) (hl : s.buf.length = s'.buf.length) :
    (s'.write t v).1 = (s.write t v).1 ∧ ∃ w : List Byte, w.length ≤ s.buf.length ∧
      (s.write t v).2.buf = w ++ s.buf.drop w.length ∧ (s'.write t v).2.buf = w ++ s'.buf.drop w.length ∧
      ((s.write t v).1 = .ok () → (s.write t v).2.len = w.length ∧ (s'.write t v).2.len = w.length) ∧
      ((s.write t v).1 ≠ .ok () → (s.write t v).2.len = s.len ∧ (s'.write t v).2.len = s'.len) := by
  obtain ⟨w, r, h1, h2, h3⟩ := t.encode_blind v hl
  rw [Slot.write_eq, Slot.write_eq, h2, h3]
  have e1 : ((Output.new s.buf).put w).buf = w ++ s.buf.drop w.length := by
    simp [Output.put, Output.new]
  have e2 : ((Output.new s'.buf).put w).buf = w ++ s'.buf.drop w.length := by
    simp [Output.put, Output.new]
  have e3 : ∀ b, ((Output.new b).put w).position = w.length := by
    intro b; simp [Output.put, Output.new, Output.position]
  cases r with
  | ok u => exact ⟨rfl, w, h1, e1, e2, fun _ => ⟨e3 _, e3 _⟩, fun h => absurd rfl h⟩
  | err e => exact ⟨rfl, w, h1, e1, e2, (fun h => nomatch h), fun _ => ⟨rfl, rfl⟩⟩
  | panic e => exact ⟨rfl, w, h1, e1, e2, (fun h => nomatch h), fun _ => ⟨rfl, rfl⟩⟩
  | ub e => exact ⟨rfl, w, h1, e1, e2, (fun h => nomatch h), fun _ => ⟨rfl, rfl⟩⟩

/-- A successful write has written the wire form. -/
theorem Slot.write_wire (s : Slot) (t : Ty) (v : t.Val) (h : (s.write t v).1 = .ok ()) :
    (s.write t v).2.len = (wire t v).length ∧ (wire t v).length ≤ s.buf.length ∧
      (s.write t v).2.buf = wire t v ++ s.buf.drop (wire t v).length := by
  obtain ⟨w, r, he, hr, hw⟩ := Ty.encode_encodes t v
  rw [Slot.write_eq] at h ⊢
  have h0 : (Output.new s.buf).WF := Nat.zero_le _
  by_cases hf : w.length ≤ (Output.new s.buf).remaining
  · have e := (he _ h0).1 hf
    rw [e] at h ⊢
    cases r with
    | ok u =>
      have hE := hr.1 rfl
      rw [hw hE] at hf ⊢
      exact ⟨by simp [Output.put, Output.new, Output.position], hf, by simp [Output.put, Output.new]⟩
    | err e => exact nomatch h
    | panic e => exact nomatch h
    | ub e => exact nomatch h
  · obtain ⟨w', _, _, e⟩ := (he _ h0).2 (Nat.not_le.mp hf)
    rw [e] at h
    exact nomatch h

/-- The same octets put in front of both buffers. -/
theorem front_alike {b b' : List Byte} {P : Nat → Prop} (h : ∀ i, P i → b[i]? = b'[i]?) (w : List Byte) (n : Nat)
    (hn : n = w.length) (i : Nat) (hi : i < w.length ∨ P i) :
    (w ++ b.drop n)[i]? = (w ++ b'.drop n)[i]? := by
  subst hn
  by_cases hw : i < w.length
  · rw [List.getElem?_append_left hw, List.getElem?_append_left hw]
  · rw [List.getElem?_append_right (Nat.not_lt.mp hw), List.getElem?_append_right (Nat.not_lt.mp hw),
      List.getElem?_drop, List.getElem?_drop]
    have e : w.length + (i - w.length) = i := by omega
    rw [e]
    exact h i (hi.resolve_left hw)

theorem take_alike {b b' : List Byte} {m : Nat} (h : ∀ i < m, b[i]? = b'[i]?) : b.take m = b'.take m := by
  apply List.ext_getElem?
  intro i
  rw [List.getElem?_take, List.getElem?_take]
  split
  · rename_i hi; exact h i hi
  · rfl

/-- Decoding octets that begin with enough for it. -/
theorem Ty.decode_front (t : Ty) (bs : List Byte) (m : Nat)
    (h : (t.decode (Input.new (bs.take m))).1 ≠ .panic .shortInput) :
    (t.decode (Input.new bs)).1 = (t.decode (Input.new (bs.take m))).1 := by
  obtain ⟨r, n, hn, h1, h2⟩ := t.decode_local (bs.take m)
  have e1 := h1 []
  have e1' : t.decode (Input.new (bs.take m)) = (r, ⟨bs.take m, 0 + n⟩) := e1
  rw [e1'] at h ⊢
  have e2 := h2 h [] (bs.drop n)
  have e3 : (bs.take m).take n ++ bs.drop n = bs := by
    have hn' : min n m = n := by rw [List.length_take] at hn; omega
    rw [List.take_take, hn', List.take_append_drop]
  rw [e3] at e2
  have e2' : t.decode (Input.new bs) = (r, ⟨bs, 0 + n⟩) := e2
  rw [e2']

theorem Use.blind {ρ : Type} : ∀ (p : Use ρ) (k : Knows) (s s' : Slot), Discreet k p s → Alike k s s' →
    (p.run s').1 = (p.run s).1
  | .done r, _, _, _, _, _ => rfl
  | .write t v next, k, s, s', hc, ⟨hl, hlen, hb⟩ => by
    obtain ⟨e, w, hw, b1, b2, hok, hno⟩ := s.write_blind s' t v hl
    unfold Use.run
    rw [e]
    unfold Discreet at hc
    refine (next _).blind _ _ _ hc ⟨?_, ?_, ?_⟩
    · rw [b1, b2]; simp only [List.length_append, List.length_drop]; omega
    · intro hk
      by_cases hr : (s.write t v).1 = .ok ()
      · rw [(hok hr).1, (hok hr).2]
      · rw [(hno hr).1, (hno hr).2]
        refine hlen ?_
        split at hk
        · rename_i h'; exact absurd h' hr
        · exact hk
    · intro i hi
      rw [b1, b2]
      refine front_alike hb w _ rfl i ?_
      split at hi
      · rename_i h'
        have := (s.write_wire t v h').1
        rw [(hok h').1] at this
        rw [this]; exact hi
      · exact Or.inr hi
  | .copyFromSlice d next, k, s, s', hc, ⟨hl, hlen, hb⟩ => by
    unfold Use.run
    unfold Discreet at hc
    by_cases hd : d.length ≤ s.buf.length
    · have e1 : s.copyFromSlice d = (.ok (), ⟨d ++ s.buf.drop d.length, d.length⟩) := if_pos hd
      have e2 : s'.copyFromSlice d = (.ok (), ⟨d ++ s'.buf.drop d.length, d.length⟩) :=
        if_pos (show d.length ≤ s'.buf.length from hl ▸ hd)
      rw [e1] at hc ⊢
      rw [e2]
      refine (next _).blind _ _ _ hc ⟨?_, fun _ => rfl, fun i hi => front_alike hb d _ rfl i hi⟩
      simp only [List.length_append, List.length_drop]; omega
    · have e1 : s.copyFromSlice d = (.panic .assertion, s) := if_neg hd
      have e2 : s'.copyFromSlice d = (.panic .assertion, s') :=
        if_neg (show ¬ d.length ≤ s'.buf.length from hl ▸ hd)
      rw [e1] at hc ⊢
      rw [e2]
      exact (next _).blind _ _ _ hc ⟨hl, hlen, hb⟩
  | .setLen n next, k, s, s', hc, ⟨hl, hlen, hb⟩ => by
    unfold Use.run
    unfold Discreet at hc
    by_cases hd : n ≤ s.buf.length
    · have e1 : s.setLen n = (.ok (), { s with len := n }) := if_pos hd
      have e2 : s'.setLen n = (.ok (), { s' with len := n }) :=
        if_pos (show n ≤ s'.buf.length from hl ▸ hd)
      rw [e1] at hc ⊢
      rw [e2]
      exact (next _).blind _ _ _ hc ⟨hl, fun _ => rfl, hb⟩
    · have e1 : s.setLen n = (.panic .assertion, s) := if_neg hd
      have e2 : s'.setLen n = (.panic .assertion, s') :=
        if_neg (show ¬ n ≤ s'.buf.length from hl ▸ hd)
      rw [e1] at hc ⊢
      rw [e2]
      exact (next _).blind _ _ _ hc ⟨hl, hlen, hb⟩
  | .setByte i b next, k, s, s', hc, ⟨hl, hlen, hb⟩ => by
    unfold Use.run
    unfold Discreet at hc
    by_cases hd : i < s.buf.length
    · have e1 : s.setByte i b = (.ok (), { s with buf := s.buf.set i b }) := if_pos hd
      have e2 : s'.setByte i b = (.ok (), { s' with buf := s'.buf.set i b }) :=
        if_pos (show i < s'.buf.length from hl ▸ hd)
      rw [e1] at hc ⊢
      rw [e2]
      refine (next _).blind _ _ _ hc ⟨?_, hlen, ?_⟩
      · simp only [List.length_set]; exact hl
      · intro j hj
        simp only [List.getElem?_set]
        by_cases hij : i = j
        · simp only [if_pos hij, hl]
        · simp only [if_neg hij]
          exact hb j (hj.resolve_left fun h => hij h.symm)
    · have e1 : s.setByte i b = (.panic .indexOutOfBounds, s) := if_neg hd
      have e2 : s'.setByte i b = (.panic .indexOutOfBounds, s') :=
        if_neg (show ¬ i < s'.buf.length from hl ▸ hd)
      rw [e1] at hc ⊢
      rw [e2]
      refine (next _).blind _ _ _ hc ⟨hl, hlen, ?_⟩
      rintro j (rfl | hj)
      · show s.buf[j]? = s'.buf[j]?
        rw [List.getElem?_eq_none (by omega), List.getElem?_eq_none (by omega)]
      · exact hb j hj
  | .recv d next, k, s, s', hc, ⟨hl, hlen, hb⟩ => by
    unfold Use.run
    unfold Discreet at hc
    have hcap : s'.capacity = s.capacity := hl.symm
    have ec : (s'.recv d).1 = (s.recv d).1 := by unfold Slot.recv; rw [hcap]
    rw [ec]
    refine (next _).blind _ _ _ hc ⟨?_, hlen, ?_⟩
    · unfold Slot.recv Slot.capacity
      simp only [List.length_append, List.length_take, List.length_drop]; omega
    · intro i hi
      unfold Slot.recv
      simp only [hcap]
      by_cases hs : i < s.buf.length
      · refine front_alike hb (d.take s.capacity) _ (by rw [List.length_take]; omega) i ?_
        rcases hi with hi | hi
        · left
          rw [List.length_take]
          exact Nat.lt_min.2 ⟨hs, hi⟩
        · exact Or.inr hi
      · have e : ∀ b : List Byte, b.length = s.buf.length →
            (d.take s.capacity ++ b.drop (min d.length s.capacity))[i]? = none := by
          intro b hb'
          apply List.getElem?_eq_none
          unfold Slot.capacity
          simp only [List.length_append, List.length_take, List.length_drop]; omega
        rw [e _ rfl, e _ hl.symm]
  | .asSlice next, k, s, s', ⟨h1, h2, h3⟩, ha => by
    unfold Use.run
    have e : s'.asSlice = s.asSlice := by
      unfold Slot.asSlice
      rw [← ha.2.1 h1, ← ha.1, take_alike fun i hi => ha.2.2 i (h2 i hi)]
    rw [e]
    exact (next _).blind _ _ _ h3 ha
  | .capacity next, k, s, s', hc, ha => by
    unfold Use.run
    have e : s'.capacity = s.capacity := ha.1.symm
    rw [e]
    exact (next _).blind _ _ _ hc ha
  | .read t next, k, s, s', ⟨⟨m, h1, h2⟩, h3⟩, ha => by
    unfold Use.run
    have e : s'.read t = s.read t := by
      have et := take_alike fun i hi => ha.2.2 i (h1 i hi)
      unfold Slot.read
      rw [t.decode_front _ m h2, t.decode_front s'.buf m (et ▸ h2), et]
    rw [e]
    exact (next _).blind _ _ _ h3 ha

theorem Slot.recv_prefix (s : Slot) {d d' : List Byte} (h : d' <+: d) (n : Nat) :
    (({ (s.recv d).2 with len := n } : Slot).recv d').2.buf = (s.recv d).2.buf := by
  obtain ⟨r, rfl⟩ := h
  unfold Slot.recv Slot.capacity
  simp only
  have hlen : ((d' ++ r).take s.buf.length ++ s.buf.drop (min (d' ++ r).length s.buf.length)).length
      = s.buf.length := by
    simp only [List.length_append, List.length_take, List.length_drop]; omega
  rw [hlen]
  generalize hb : (d' ++ r).take s.buf.length ++ s.buf.drop (min (d' ++ r).length s.buf.length) = b at hlen ⊢
  have e : d'.take s.buf.length = b.take (min d'.length s.buf.length) := by
    rw [← hb, List.take_append_of_le_length (by simp only [List.length_append, List.length_take]; omega), List.take_take]
    have hm : min (min d'.length s.buf.length) s.buf.length = min d'.length s.buf.length := by omega
    rw [hm, List.take_append_of_le_length (by omega)]
    by_cases h : d'.length ≤ s.buf.length
    · rw [Nat.min_eq_left h, List.take_of_length_le h, List.take_length]
    · rw [Nat.min_eq_right (by omega)]
  rw [e, List.take_append_drop]

theorem Slot.setLen_buf (s : Slot) (n : Nat) : (s.setLen n).2.buf = s.buf := by
  unfold Slot.setLen; split <;> rfl

theorem Slot.write_length (s : Slot) (t : Ty) (v : t.Val) : (s.write t v).2.buf.length = s.buf.length := by
  obtain ⟨_, w, hw, h, _⟩ := s.write_blind s t v rfl
  rw [h]; simp only [List.length_append, List.length_drop]; omega

theorem Slot.write_ok_sent (s : Slot) (t : Ty) (v : t.Val) (h : (s.write t v).1 = .ok ()) :
    (s.write t v).2.sent = [wire t v] := by
  obtain ⟨h1, h2, h3⟩ := s.write_wire t v h
  have hc := s.write_length t v
  have e : (s.write t v).2.asSlice = .ok (wire t v) := by
    unfold Slot.asSlice
    rw [if_neg (by omega), h3, h1, List.take_left']
    rfl
  unfold Slot.sent
  rw [e]

/-- What the server sends after it read `r`, if writing comes out so. -/
def Net.reply {req resp : Ty} (f : req.Val → resp.Val) (w : resp.Val → Res EncErr Unit) :
    Res DecErr req.Val → List (List Byte)
  | .ok v => match w (f v) with
    | .ok () => [wire resp (f v)]
    | _ => []
  | _ => []

theorem Net.serve_shows {req resp : Ty} (f : req.Val → resp.Val) (n : Net req resp) (i : Nat) (d : List Byte)
    (hi : n.requests[i]? = some d) :
    (n.step f (.serve i)).heard = n.heard ++ [(n.server.requestBuf.recv d).2.read req] ∧
    (n.step f (.serve i)).responses = n.responses ++
      Net.reply f (fun v => (n.server.responseBuf.write resp v).1) ((n.server.requestBuf.recv d).2.read req) ∧
    (n.step f (.serve i)).server.responseBuf.buf.length = n.server.responseBuf.buf.length ∧
    (n.step f (.serve i)).server.requestBuf.buf = (n.server.requestBuf.recv d).2.buf ∧
    (n.step f (.serve i)).requests = n.requests := by
  have eb := (n.server.requestBuf.recv d).2.setLen_buf (n.server.requestBuf.recv d).1
  have er : ((n.server.requestBuf.recv d).2.setLen (n.server.requestBuf.recv d).1).2.read req
      = (n.server.requestBuf.recv d).2.read req := by unfold Slot.read; rw [eb]
  unfold Net.step
  simp only [hi, er]
  cases hr : (n.server.requestBuf.recv d).2.read req with
  | ok v =>
    simp only
    refine ⟨trivial, ?_, Slot.write_length _ _ _, eb, trivial⟩
    simp only [Net.reply]
    cases hw : (n.server.responseBuf.write resp (f v)).1 with
    | ok u => simp only; rw [Slot.write_ok_sent _ _ _ hw]
    | err e => rfl
    | panic e => rfl
    | ub e => rfl
  | err e => exact ⟨rfl, (List.append_nil _).symm, rfl, eb, rfl⟩
  | panic e => exact ⟨rfl, (List.append_nil _).symm, rfl, eb, rfl⟩
  | ub e => exact ⟨rfl, (List.append_nil _).symm, rfl, eb, rfl⟩

theorem Slot.write_same (s s' : Slot) (t : Ty) (hl : s.buf.length = s'.buf.length) :
    (fun v => (s'.write t v).1) = fun v => (s.write t v).1 := by
  funext v; exact (s.write_blind s' t v hl).1

end Oct
