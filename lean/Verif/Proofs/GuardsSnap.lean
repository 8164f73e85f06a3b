import Verif.Proofs.Guards
/- Guards exclude one another, and what is covered by one is encoded as it was at one moment. -/
namespace Oct
open Spec
variable {joins : Guards → Nat → Bool}

/-- Guards of the same lock that different threads hold are guards to read through. -/
def Guards.Excl (s : Guards) : Prop :=
  ∀ (i j : Nat) (a b : Agent), s.agents[i]? = some a → s.agents[j]? = some b → i ≠ j →
    ∀ g ∈ a.holds, ∀ h ∈ b.holds, g.1 = h.1 → alone? s.kind g = false

/-- What a thread holds after a step, it held before or asked for. -/
theorem Agent.next_holds {kind : Nat → LockKind} {content : Nat → List Piece} {a a' : Agent}
    {w : Option (Nat × List Piece)} (hn : a.next kind content = some (a', w)) :
    ∀ x ∈ a'.holds, x ∈ a.holds ∨ a.asks = some x := by
  obtain ⟨script, guards, call, output, results⟩ := a
  unfold Agent.next at hn
  dsimp only at hn
  intro x hx
  split at hn
  · split at hn <;> cases hn <;> exact .inl hx
  · cases hn
    rcases List.mem_append.mp hx with hx | hx
    · rcases List.mem_cons.mp hx with rfl | hx
      · exact .inr rfl
      · exact .inl (List.mem_append_left _ hx)
    · exact .inl (List.mem_append_right _ hx)
  · cases hn
    rcases List.mem_append.mp hx with hx | hx
    · exact .inl (List.mem_append_left _ (List.mem_cons_of_mem _ hx))
    · exact .inl (List.mem_append_right _ hx)
  · cases hn; exact .inl hx
  · cases hn
    rcases List.mem_append.mp hx with hx | hx
    · exact .inl (List.mem_append_left _ (List.mem_cons_of_mem _ hx))
    · exact .inl (List.mem_append_right _ hx)
  · cases hn; exact .inl hx
  · cases hn; cases hx
  · split at hn
    · cases hn
    · cases hn
      rcases List.mem_append.mp hx with hx | hx
      · cases hx
      · rcases List.mem_cons.mp hx with rfl | hx
        · exact .inr rfl
        · exact .inl hx
    · cases hn
      exact .inl (dropGuard_sub _ _ _ hx)
    · cases hn; exact .inl hx
    · cases hn; exact .inl hx
    · split at hn <;> cases hn <;> exact .inl hx

/-- A guard that is given out is the only one, or all are to read through. -/
theorem Guards.lets_alone {s : Guards} {g : Nat × Bool} {b : Agent} {h : Nat × Bool}
    (hl : s.lets joins g = true) (hb : b ∈ s.agents) (hh : h ∈ b.holds) (e : g.1 = h.1) :
    alone? s.kind g = false ∧ alone? s.kind h = false := by
  have hm : h ∈ s.guardsOf g.1 :=
    List.mem_filter.mpr ⟨List.mem_flatMap.mpr ⟨b, hb, hh⟩, beq_iff_eq.mpr e.symm⟩
  unfold Guards.lets at hl
  split at hl
  · rw [List.isEmpty_iff] at hl
    rw [hl] at hm
    cases hm
  · next ha =>
    refine ⟨by simpa using ha, ?_⟩
    have := (Bool.and_eq_true _ _ ▸ hl).1
    simpa using List.all_eq_true.mp this h hm

theorem Guards.Excl.step {s s' : Guards} {k : Nat} (h : s.Excl) (hs : s.step joins k = some s') :
    s'.Excl := by
  obtain ⟨a, a', w, ha, hl, hn, rfl⟩ := Guards.step_some hs
  have hx := Agent.next_holds hn
  have hk : k < s.agents.length := (List.getElem?_eq_some_iff.mp ha).1
  intro i j x y hi hj hij g hg g' hg' e
  dsimp only at hi hj ⊢
  by_cases hik : k = i
  · subst hik
    rw [List.getElem?_set_self hk] at hi
    rw [List.getElem?_set_ne hij] at hj
    cases hi
    rcases hx g hg with h1 | h1
    · exact h k j a y ha hj hij g h1 g' hg' e
    · exact (Guards.lets_alone (hl g h1) (List.mem_of_getElem? hj) hg' e).1
  · rw [List.getElem?_set_ne hik] at hi
    by_cases hjk : k = j
    · subst hjk
      rw [List.getElem?_set_self hk] at hj
      cases hj
      rcases hx g' hg' with h1 | h1
      · exact h i k x a hi ha hij g hg g' h1 e
      · exact (Guards.lets_alone (hl g' h1) (List.mem_of_getElem? hi) hg e.symm).2
    · rw [List.getElem?_set_ne hjk] at hj
      exact h i j x y hi hj hij g hg g' hg' e

theorem Guards.Excl.run {s : Guards} (h : s.Excl) (ks : List Nat) : (s.run joins ks).Excl := by
  induction ks generalizing s with
  | nil => exact h
  | cons k ks ih =>
    show (((s.step joins k).getD s).run joins ks).Excl
    cases hs : s.step joins k with
    | none => exact ih h
    | some s' => exact ih (h.step hs)

/-- The programs cover the locks `S` by the lock `l`. -/
structure Guards.Fenced (l : Nat) (S : Nat → Prop) (s : Guards) : Prop where
  excl : s.Excl
  covers : ∀ a ∈ s.agents, Covers s.kind l S a.guards a.script
  within : ∀ r, r = l ∨ S r → LocksIn S (s.content r)

theorem Agent.next_covers {kind : Nat → LockKind} {content : Nat → List Piece} {a a' : Agent}
    {w : Option (Nat × List Piece)} {l : Nat} {S : Nat → Prop} (hn : a.next kind content = some (a', w))
    (h : Covers kind l S a.guards a.script) :
    Covers kind l S a'.guards a'.script ∧ ∀ r c, w = some (r, c) → r = l ∨ S r →
      a.call = .idle ∧ (∃ g ∈ a.guards, g.1 = l ∧ alone? kind g = true) ∧ LocksIn S c := by
  obtain ⟨script, guards, call, output, results⟩ := a
  unfold Agent.next at hn
  dsimp only at hn h
  split at hn
  · split at hn <;> cases hn <;> exact ⟨h, fun _ _ h => nomatch h⟩
  · cases hn; exact ⟨h, fun _ _ h => nomatch h⟩
  · cases hn; exact ⟨h, fun _ _ h => nomatch h⟩
  · cases hn; exact ⟨h, fun _ _ h => nomatch h⟩
  · cases hn; exact ⟨h, fun _ _ h => nomatch h⟩
  · cases hn; exact ⟨h, fun _ _ h => nomatch h⟩
  · cases hn; exact ⟨trivial, fun _ _ h => nomatch h⟩
  · split at hn
    · cases hn
    · cases hn; exact ⟨h, fun _ _ h => nomatch h⟩
    · cases hn; exact ⟨h, fun _ _ h => nomatch h⟩
    · cases hn
      refine ⟨h.2, fun r c hw hr => ?_⟩
      split at hw
      · cases hw
        exact ⟨rfl, h.1 hr⟩
      · cases hw
    · cases hn; exact ⟨h, fun _ _ h => nomatch h⟩
    · split at hn <;> cases hn <;> exact ⟨h, fun _ _ h => nomatch h⟩

theorem Guards.Fenced.step {s s' : Guards} {k l : Nat} {S : Nat → Prop} (h : s.Fenced l S)
    (hs : s.step joins k = some s') : s'.Fenced l S := by
  have he := h.excl.step hs
  obtain ⟨a, a', w, ha, hl, hn, rfl⟩ := Guards.step_some hs
  obtain ⟨h1, h2⟩ := Agent.next_covers hn (h.covers a (List.mem_of_getElem? ha))
  refine ⟨he, ?_, ?_⟩
  · intro b hb
    rcases List.mem_or_eq_of_mem_set hb with hb | rfl
    · exact h.covers b hb
    · exact h1
  · intro r hr
    show LocksIn S (wrote s.content w r)
    cases w with
    | none => exact h.within r hr
    | some p =>
      show LocksIn S (if r = p.1 then p.2 else s.content r)
      split
      · next e => exact (h2 p.1 p.2 rfl (e ▸ hr)).2.2
      · exact h.within r hr

theorem Guards.Fenced.run {s : Guards} {l : Nat} {S : Nat → Prop} (h : s.Fenced l S) (ks : List Nat) :
    (s.run joins ks).Fenced l S := by
  induction ks generalizing s with
  | nil => exact h
  | cons k ks ih =>
    show (((s.step joins k).getD s).run joins ks).Fenced l S
    cases hs : s.step joins k with
    | none => exact ih h
    | some s' => exact ih (h.step hs)

/-- While a thread holds a guard of `l`, nobody else changes what it covers. -/
theorem Guards.Fenced.keeps {s s' : Guards} {k k' l : Nat} {S : Nat → Prop} {a : Agent}
    (h : s.Fenced l S) (hs : s.step joins k' = some s') (hk : s.agents[k]? = some a)
    (hg : ∃ g ∈ a.holds, g.1 = l) (hi : k' ≠ k ∨ a.call ≠ .idle) :
    ∀ r, r = l ∨ S r → s'.content r = s.content r := by
  obtain ⟨b, b', w, hb, hl, hn, rfl⟩ := Guards.step_some hs
  obtain ⟨h1, h2⟩ := Agent.next_covers hn (h.covers b (List.mem_of_getElem? hb))
  intro r hr
  show wrote s.content w r = _
  cases w with
  | none => rfl
  | some p =>
    show (if r = p.1 then p.2 else s.content r) = _
    split
    · next e =>
      obtain ⟨h3, ⟨x, hx, hx1, hx2⟩, _⟩ := h2 p.1 p.2 rfl (e ▸ hr)
      obtain ⟨g, hg, hgl⟩ := hg
      by_cases hkk : k' = k
      · subst hkk
        cases hb.symm.trans hk
        rcases hi with hi | hi
        · exact absurd rfl hi
        · exact absurd h3 hi
      · have := h.excl k' k b a hb hk hkk x (List.mem_append_right _ hx) g hg (hx1.trans hgl.symm)
        rw [hx2] at this
        cases this
    · rfl

/-! ## One moment -/

/-- How a call goes on if nothing changes. -/
def Onward (C : Nat → List Piece) :
    List Frame → List Piece → Output → Res EncErr Unit → Output → Prop
  | [], c, o, r, o' => Passes C c o r o'
  | f :: fs, c, o, r, o' =>
    (∃ o1, Passes C c o (.ok ()) o1 ∧ Onward C fs f.rest o1 r o') ∨
    ∃ q, q ≠ .ok () ∧ Passes C c o q o' ∧ r = unwind (q.mapErr f.onErr) fs

theorem Onward.before {C : Nat → List Piece} {c c0 : List Piece} {o o0 o' : Output} {r : Res EncErr Unit}
    {held : List Frame} (h : Onward C held c o r o')
    (hc : ∀ r o', Passes C c o r o' → Passes C c0 o0 r o') : Onward C held c0 o0 r o' := by
  cases held with
  | nil => exact hc _ _ h
  | cons f fs =>
    rcases h with ⟨o1, h1, h2⟩ | ⟨q, h1, h2, h3⟩
    · exact .inl ⟨o1, hc _ _ h1, h2⟩
    · exact .inr ⟨q, h1, hc _ _ h2, h3⟩

theorem Onward.fails {C : Nat → List Piece} {c : List Piece} {o o' : Output} {r : Res EncErr Unit}
    {held : List Frame} (h : Passes C c o r o') (hr : r ≠ .ok ()) :
    Onward C held c o (unwind r held) o' := by
  cases held with
  | nil => exact h
  | cons f fs => exact .inr ⟨r, hr, h, rfl⟩

theorem Onward.lock {C : Nat → List Piece} {l : Nat} {g : EncErr → EncErr} {c : List Piece}
    {o o' : Output} {r : Res EncErr Unit} {held : List Frame}
    (h : Onward C (⟨l, g, c⟩ :: held) (C l) o r o') : Onward C held (.lock l g :: c) o r o' := by
  rcases h with ⟨o1, h1, h2⟩ | ⟨q, h1, h2, h3⟩
  · exact h2.before fun r o' h => .lock h1 h
  · rw [h3]
    exact Onward.fails (.lockFails h2 h1) (mapErr_ne_ok h1)

/-- What is known of a call that began with the pieces `c0` and the output `o0`. -/
def Call.Known (C : Nat → List Piece) (c0 : List Piece) (o0 o : Output) : Call → Prop
  | .idle => False
  | .encoding c held => ∀ r o', Onward C held c o r o' → Passes C c0 o0 r o'
  | .failing r held => Passes C c0 o0 (unwind r held) o

theorem Call.Known.returns {C : Nat → List Piece} {c0 : List Piece} {o0 : Output} {a : Agent}
    {r : Res EncErr Unit} (h : a.call.Known C c0 o0 a.output) (hr : Returns a r) :
    Passes C c0 o0 r a.output := by
  rcases hr with ⟨h1, rfl⟩ | h1
  · rw [h1] at h
    exact h _ _ .nil
  · rw [h1] at h
    exact h

/-- The call only has locks of `S` before it. -/
def Call.Inside (S : Nat → Prop) : Call → Prop
  | .idle => True
  | .encoding c held => LocksIn S c ∧ ∀ f ∈ held, LocksIn S f.rest
  | .failing _ _ => True

/-- The call ends with its next step. -/
def Call.Last : Call → Prop
  | .idle => False
  | .encoding c held => c = [] ∧ held = []
  | .failing _ held => held = []

/-- A guard of `l` is held to the end of the call, either by the caller or around all that the call
encodes. -/
def Agent.Fences (l : Nat) (a : Agent) : Prop :=
  (∃ g ∈ a.guards, g.1 = l) ∨ ∃ pre g, a.call.held = pre ++ [⟨l, g, []⟩]

theorem Agent.Fences.holds {l : Nat} {a : Agent} (h : a.Fences l) : ∃ g ∈ a.holds, g.1 = l := by
  rcases h with ⟨g, hg, e⟩ | ⟨pre, g, e⟩
  · exact ⟨g, List.mem_append_right _ hg, e⟩
  · refine ⟨(l, false), List.mem_append_left _ ?_, rfl⟩
    rw [e]
    simp

theorem locksIn_nil (S : Nat → Prop) : LocksIn S [] := fun _ _ h => absurd h List.not_mem_nil

theorem LocksIn.tail {S : Nat → Prop} {p : Piece} {c : List Piece} (h : LocksIn S (p :: c)) : LocksIn S c :=
  fun r g hr => h r g (List.mem_cons_of_mem _ hr)

/-- A step of a thread in a call. -/
theorem Agent.next_known {kind : Nat → LockKind} {content : Nat → List Piece} {a a' : Agent}
    {w : Option (Nat × List Piece)} {l : Nat} {S : Nat → Prop} {C : Nat → List Piece} {c0 : List Piece}
    {o0 : Output} (hn : a.next kind content = some (a', w)) (hw : ∀ r, r = l ∨ S r → LocksIn S (content r))
    (hk : a.call.Known C c0 o0 a.output)
    (hf : a.Fences l ∧ a.call.Inside S ∧ (∀ r, r = l ∨ S r → content r = C r) ∨ a.call.Last) :
    a.results.length < a'.results.length ∨
    a'.results.length = a.results.length ∧ a'.call.Known C c0 o0 a'.output ∧
      (a'.Fences l ∧ a'.call.Inside S ∨ a'.call.Last) := by
  obtain ⟨script, guards, call, output, results⟩ := a
  unfold Agent.next at hn
  dsimp only at hn hk hf
  split at hn
  · rename_i m cur held
    have hf : _ := hf.resolve_right fun h => nomatch h.1
    obtain ⟨h1, h2, h3⟩ := hf
    split at hn
    · next hm =>
      cases hn
      refine .inr ⟨rfl, fun r o' h => hk r o' (h.before fun r o' h => .plain (Prod.ext hm rfl) h),
        .inl ⟨h1, LocksIn.tail h2.1, h2.2⟩⟩
    · next hm =>
      cases hn
      refine .inr ⟨rfl, ?_, .inl ⟨h1, trivial⟩⟩
      exact hk _ _ (Onward.fails (.plainFails rfl fun h => hm h) fun h => hm h)
  · rename_i r g cur held
    have hf : _ := hf.resolve_right fun h => nomatch h.1
    obtain ⟨h1, h2, h3⟩ := hf
    have hS : S r := h2.1 r g (List.mem_cons_self ..)
    cases hn
    refine .inr ⟨rfl, ?_, .inl ⟨?_, hw r (.inr hS), fun f hf => ?_⟩⟩
    · intro q o' h
      rw [h3 r (.inr hS)] at h
      exact hk q o' h.lock
    · rcases h1 with h1 | ⟨pre, g', e⟩
      · exact .inl h1
      · exact .inr ⟨⟨r, g, cur⟩ :: pre, g', congrArg _ e⟩
    · rcases List.mem_cons.mp hf with rfl | hf
      · exact LocksIn.tail h2.1
      · exact h2.2 f hf
  · rename_i f held
    have hf : _ := hf.resolve_right fun h => nomatch h.2
    obtain ⟨h1, h2, h3⟩ := hf
    cases hn
    refine .inr ⟨rfl, fun r o' h => hk r o' (.inl ⟨_, .nil, h⟩), ?_⟩
    have hin : (Call.encoding f.rest held).Inside S :=
      ⟨h2.2 f (List.mem_cons_self ..), fun f' hf' => h2.2 f' (List.mem_cons_of_mem _ hf')⟩
    rcases h1 with h1 | ⟨pre, g', e⟩
    · exact .inl ⟨.inl h1, hin⟩
    · cases pre with
      | nil => cases e; exact .inr ⟨rfl, rfl⟩
      | cons p pre => cases e; exact .inl ⟨.inr ⟨pre, g', rfl⟩, hin⟩
  · cases hn
    left
    simp
  · rename_i r f held
    have hf : _ := hf.resolve_right fun h => nomatch h
    obtain ⟨h1, h2, h3⟩ := hf
    cases hn
    refine .inr ⟨rfl, hk, ?_⟩
    rcases h1 with h1 | ⟨pre, g', e⟩
    · exact .inl ⟨.inl h1, trivial⟩
    · cases pre with
      | nil => cases e; exact .inr rfl
      | cons p pre => cases e; exact .inl ⟨.inr ⟨pre, g', rfl⟩, trivial⟩
  · cases hn
    left
    simp
  · cases hn
    left
    simp
  · exact hk.elim

theorem Agent.next_results {kind : Nat → LockKind} {content : Nat → List Piece} {a a' : Agent}
    {w : Option (Nat × List Piece)} (hn : a.next kind content = some (a', w)) :
    a.results.length ≤ a'.results.length := by
  obtain ⟨script, guards, call, output, results⟩ := a
  unfold Agent.next at hn
  dsimp only at hn
  split at hn
  · split at hn <;> cases hn <;> exact Nat.le_refl _
  · cases hn; exact Nat.le_refl _
  · cases hn; exact Nat.le_refl _
  · cases hn; simp
  · cases hn; exact Nat.le_refl _
  · cases hn; simp
  · cases hn; simp
  · split at hn
    · cases hn
    · cases hn; exact Nat.le_refl _
    · cases hn; exact Nat.le_refl _
    · cases hn; exact Nat.le_refl _
    · cases hn; exact Nat.le_refl _
    · split at hn <;> cases hn <;> exact Nat.le_refl _

/-- A step, as the thread `k` sees it. -/
theorem Guards.step_agent {s s' : Guards} {k k' : Nat} {a : Agent} (hs : s.step joins k' = some s')
    (ha : s.agents[k]? = some a) :
    k' ≠ k ∧ s'.agents[k]? = some a ∨
    k' = k ∧ ∃ a' w, s'.agents[k]? = some a' ∧ a.next s.kind s.content = some (a', w) := by
  obtain ⟨b, b', w, hb, hl, hn, rfl⟩ := Guards.step_some hs
  by_cases hk : k' = k
  · subst hk
    cases hb.symm.trans ha
    exact .inr ⟨rfl, b', w, List.getElem?_set_self (List.getElem?_eq_some_iff.mp ha).1, hn⟩
  · exact .inl ⟨hk, (List.getElem?_set_ne hk).trans ha⟩

theorem Guards.run_results {s : Guards} {k : Nat} {a a' : Agent} (ks : List Nat)
    (ha : s.agents[k]? = some a) (ha' : (s.run joins ks).agents[k]? = some a') :
    a.results.length ≤ a'.results.length := by
  induction ks generalizing s a with
  | nil => cases ha.symm.trans ha'; exact Nat.le_refl _
  | cons i ks ih =>
    change ((((s.step joins i).getD s).run joins ks)).agents[k]? = some a' at ha'
    cases hs : s.step joins i with
    | none => rw [hs] at ha'; exact ih ha ha'
    | some s' =>
      rw [hs] at ha'
      rcases Guards.step_agent hs ha with ⟨_, h1⟩ | ⟨_, b, w, h1, h2⟩
      · exact ih h1 ha'
      · exact Nat.le_trans (Agent.next_results h2) (ih h1 ha')

/-- From the moment on when the guard is held. -/
theorem Guards.Fenced.snapshot {l : Nat} {S : Nat → Prop} {C : Nat → List Piece} {c0 : List Piece}
    {o0 : Output} {s : Guards} {k : Nat} {a a' : Agent} {r : Res EncErr Unit} (ks : List Nat)
    (h : s.Fenced l S) (ha : s.agents[k]? = some a) (hk : a.call.Known C c0 o0 a.output)
    (hf : a.Fences l ∧ a.call.Inside S ∧ (∀ r, r = l ∨ S r → s.content r = C r) ∨ a.call.Last)
    (ha' : (s.run joins ks).agents[k]? = some a') (hl : a'.results.length = a.results.length)
    (hr : Returns a' r) : Passes C c0 o0 r a'.output := by
  induction ks generalizing s a with
  | nil => cases ha.symm.trans ha'; exact hk.returns hr
  | cons i ks ih =>
    change ((((s.step joins i).getD s).run joins ks)).agents[k]? = some a' at ha'
    cases hs : s.step joins i with
    | none => rw [hs] at ha'; exact ih h ha hk hf ha' hl
    | some s' =>
      rw [hs] at ha'
      rcases Guards.step_agent hs ha with ⟨h0, h1⟩ | ⟨h0, b, w, h1, h2⟩
      · refine ih (h.step hs) h1 hk ?_ ha' hl
        rcases hf with ⟨f1, f2, f3⟩ | hf
        · exact .inl ⟨f1, f2, fun r hr => (h.keeps hs ha f1.holds (.inl h0) r hr).trans (f3 r hr)⟩
        · exact .inr hf
      · rcases Agent.next_known h2 h.within hk hf with h3 | ⟨h3, h4, h5⟩
        · have := Guards.run_results ks h1 ha'
          omega
        · refine ih (h.step hs) h1 h4 ?_ ha' (hl.trans h3.symm)
          rcases h5 with ⟨f1, f2⟩ | h5
          · rcases hf with hf | hf
            · refine .inl ⟨f1, f2, fun r hr => (h.keeps hs ha hf.1.holds (.inr ?_) r hr).trans (hf.2.2 r hr)⟩
              intro e
              rw [e] at hk
              exact hk
            · exfalso
              obtain ⟨script, guards, call, output, results⟩ := a
              cases call with
              | idle => exact hk
              | encoding c held => obtain ⟨rfl, rfl⟩ := hf; cases h2; simp at h3
              | failing q held => cases hf; cases q <;> (cases h2; simp at h3)
          · exact .inr h5

/-- A thread that waits for the lock, and then encodes. -/
theorem Guards.Fenced.waits {l : Nat} {S : Nat → Prop} {g : EncErr → EncErr} {s : Guards} {k : Nat}
    {a a' : Agent} {r : Res EncErr Unit} (ks : List Nat) (h : s.Fenced l S) (ha : s.agents[k]? = some a)
    (hc : a.call = .encoding [.lock l g] []) (ha' : (s.run joins ks).agents[k]? = some a')
    (hl : a'.results.length = a.results.length) (hr : Returns a' r) :
    ∃ pre post, ks = pre ++ post ∧
      Passes (s.run joins pre).content [.lock l g] a.output r a'.output := by
  induction ks generalizing s with
  | nil =>
    cases ha.symm.trans ha'
    rcases hr with ⟨h1, _⟩ | h1 <;> (rw [hc] at h1; cases h1)
  | cons i ks ih =>
    change ((((s.step joins i).getD s).run joins ks)).agents[k]? = some a' at ha'
    cases hs : s.step joins i with
    | none =>
      rw [hs] at ha'
      obtain ⟨pre, post, e, hp⟩ := ih h ha ha'
      refine ⟨i :: pre, post, congrArg _ e, ?_⟩
      show Passes ((((s.step joins i).getD s).run joins pre)).content _ _ _ _
      rw [hs]
      exact hp
    | some s' =>
      rw [hs] at ha'
      rcases Guards.step_agent hs ha with ⟨h0, h1⟩ | ⟨h0, b, w, h1, h2⟩
      · obtain ⟨pre, post, e, hp⟩ := ih (h.step hs) h1 ha'
        refine ⟨i :: pre, post, congrArg _ e, ?_⟩
        show Passes ((((s.step joins i).getD s).run joins pre)).content _ _ _ _
        rw [hs]
        exact hp
      · refine ⟨[], i :: ks, rfl, ?_⟩
        have hcont : s'.content = s.content := by
          obtain ⟨x, x', w', hx, _, hn, rfl⟩ := Guards.step_some hs
          subst h0
          cases hx.symm.trans ha
          obtain ⟨script, guards, call, output, results⟩ := a
          cases hc
          cases hn
          rfl
        obtain ⟨script, guards, call, output, results⟩ := a
        cases hc
        cases h2
        refine Guards.Fenced.snapshot ks (h.step hs) h1 ?_ (.inl ⟨?_, ⟨?_, ?_⟩, ?_⟩) ha' hl hr
        · exact fun q o' h => Onward.lock (held := []) h
        · exact .inr ⟨[], g, rfl⟩
        · exact h.within l (.inl rfl)
        · intro f hf
          cases List.mem_singleton.mp hf
          exact locksIn_nil S
        · exact fun r _ => congrFun hcont r

/-- A thread that encodes what is behind a guard of its own. -/
theorem Guards.Fenced.through {l : Nat} {S : Nat → Prop} {s : Guards} {k : Nat} {a a' : Agent}
    {r : Res EncErr Unit} (ks : List Nat) (h : s.Fenced l S) (ha : s.agents[k]? = some a)
    (hc : a.call = .encoding (s.content l) []) (hg : ∃ g ∈ a.guards, g.1 = l)
    (ha' : (s.run joins ks).agents[k]? = some a') (hl : a'.results.length = a.results.length)
    (hr : Returns a' r) : Passes s.content (s.content l) a.output r a'.output := by
  refine Guards.Fenced.snapshot ks h ha ?_ (.inl ⟨.inl hg, ?_, fun _ _ => rfl⟩) ha' hl hr
  · rw [hc]
    exact fun q o' h => h
  · rw [hc]
    exact ⟨h.within l (.inl rfl), fun f hf => absurd hf List.not_mem_nil⟩

end Oct
