import Verif.Spec.Guards
import Verif.Proofs.LocksEnd
/- Guards that callers hold: somebody can always go on, and how many steps there are. -/
namespace Oct
open Spec
variable {rank : Nat → Nat} {joins : Guards → Nat → Bool}

/-- What is to be done in a call is of a rank below all that is held. -/
def Sunk (rank : Nat → Nat) (h : List Nat) : List Piece → List Frame → Prop
  | c, [] => ∀ x ∈ h, Below rank (rank x) c
  | c, f :: fs => Below rank (rank f.lock) c ∧ (∀ g ∈ fs, rank f.lock < rank g.lock) ∧
    (∀ x ∈ h, rank f.lock < rank x) ∧ Sunk rank h f.rest fs

def Call.Ok (rank : Nat → Nat) (h : List Nat) : Call → Prop
  | .idle => True
  | .encoding c held => Sunk rank h c held
  | .failing _ held => Sunk rank h [] held

/-- What is true of a thread. -/
structure Agent.Ok (rank : Nat → Nat) (a : Agent) : Prop where
  script : Orderly rank (a.guards.map Prod.fst) a.script
  call : a.call.Ok rank (a.guards.map Prod.fst)

theorem below_nil (n : Nat) : Below rank n [] := fun _ _ h => absurd h List.not_mem_nil

theorem Sunk.failing {h : List Nat} {c : List Piece} {held : List Frame} (hs : Sunk rank h c held) :
    Sunk rank h [] held := by
  cases held with
  | nil => exact fun x _ => below_nil _
  | cons f fs => exact ⟨below_nil _, hs.2⟩

theorem Sunk.tail {h : List Nat} {p : Piece} {c : List Piece} {held : List Frame}
    (hs : Sunk rank h (p :: c) held) : Sunk rank h c held := by
  cases held with
  | nil => exact fun x hx => Below.tail (hs x hx)
  | cons f fs => exact ⟨Below.tail hs.1, hs.2⟩

theorem Sunk.asks {h : List Nat} {r : Nat} {g : EncErr → EncErr} {c : List Piece} {held : List Frame}
    (hs : Sunk rank h (.lock r g :: c) held) :
    (∀ f ∈ held, rank r < rank f.lock) ∧ ∀ x ∈ h, rank r < rank x := by
  cases held with
  | nil => exact ⟨fun f hf => absurd hf List.not_mem_nil, fun x hx => hs x hx r g (List.mem_cons_self ..)⟩
  | cons f fs =>
    have h1 : rank r < rank f.lock := hs.1 r g (List.mem_cons_self ..)
    refine ⟨fun f' hf' => ?_, fun x hx => Nat.lt_trans h1 (hs.2.2.1 x hx)⟩
    rcases List.mem_cons.mp hf' with rfl | hf'
    · exact h1
    · exact Nat.lt_trans h1 (hs.2.1 f' hf')

theorem dropGuard_fst (r : Nat) (gs : List (Nat × Bool)) :
    (dropGuard r gs).map Prod.fst = (gs.map Prod.fst).erase r := by
  induction gs with
  | nil => rfl
  | cons g gs ih =>
    unfold dropGuard
    rw [List.map_cons, List.erase_cons]
    by_cases h : g.1 = r
    · rw [if_pos h, if_pos (beq_iff_eq.mpr h)]
    · rw [if_neg h, if_neg (fun e => h (beq_iff_eq.mp e)), List.map_cons, ih]

theorem dropGuard_sub (r : Nat) (gs : List (Nat × Bool)) : ∀ g ∈ dropGuard r gs, g ∈ gs := by
  induction gs with
  | nil => exact fun g h => h
  | cons x gs ih =>
    intro g hg
    unfold dropGuard at hg
    split at hg
    · exact List.mem_cons_of_mem _ hg
    · rcases List.mem_cons.mp hg with rfl | hg
      · exact List.mem_cons_self ..
      · exact List.mem_cons_of_mem _ (ih g hg)

/-- Each step keeps the order. -/
theorem Agent.Ok.next {kind : Nat → LockKind} {content : Nat → List Piece} {a a' : Agent}
    {w : Option (Nat × List Piece)} (hc : ∀ r, Below rank (rank r) (content r)) (h : a.Ok rank)
    (hn : a.next kind content = some (a', w)) :
    a'.Ok rank ∧ ∀ r c, w = some (r, c) → Below rank (rank r) c := by
  obtain ⟨script, guards, call, output, results⟩ := a
  have h1 := h.script
  have h2 := h.call
  dsimp only at h1 h2
  unfold Agent.next at hn
  dsimp only at hn
  split at hn
  · split at hn
    · cases hn
      exact ⟨⟨h1, h2.tail⟩, fun _ _ h => nomatch h⟩
    · cases hn
      exact ⟨⟨h1, h2.failing⟩, fun _ _ h => nomatch h⟩
  · cases hn
    exact ⟨⟨h1, hc _, h2.asks.1, h2.asks.2, h2.tail⟩, fun _ _ h => nomatch h⟩
  · cases hn
    exact ⟨⟨h1, h2.2.2.2⟩, fun _ _ h => nomatch h⟩
  · cases hn
    exact ⟨⟨h1, trivial⟩, fun _ _ h => nomatch h⟩
  · cases hn
    exact ⟨⟨h1, h2.2.2.2.failing⟩, fun _ _ h => nomatch h⟩
  · cases hn
    exact ⟨⟨h1, trivial⟩, fun _ _ h => nomatch h⟩
  · cases hn
    exact ⟨⟨rfl, trivial⟩, fun _ _ h => nomatch h⟩
  · split at hn
    · cases hn
    · cases hn
      exact ⟨⟨h1.2, trivial⟩, fun _ _ h => nomatch h⟩
    · cases hn
      refine ⟨⟨?_, trivial⟩, fun _ _ h => nomatch h⟩
      show Orderly rank ((dropGuard _ guards).map Prod.fst) _
      rw [dropGuard_fst]
      exact h1
    · cases hn
      refine ⟨⟨h1.2, trivial⟩, fun r c hw => ?_⟩
      split at hw
      · cases hw
        exact h1.1
      · cases hw
    · cases hn
      exact ⟨⟨h1.2, h1.1⟩, fun _ _ h => nomatch h⟩
    · split at hn
      · cases hn
        exact ⟨⟨h1.2, fun x hx => Below.mono (hc _) (h1.1 x hx)⟩, fun _ _ h => nomatch h⟩
      · cases hn
        exact ⟨⟨h1.2, trivial⟩, fun _ _ h => nomatch h⟩

/-- What a thread asks for is of a lower rank than all that it holds. -/
theorem Agent.Ok.asks {a : Agent} {g : Nat × Bool} (h : a.Ok rank) (ha : a.asks = some g) :
    ∀ x ∈ a.holds, rank g.1 < rank x.1 := by
  obtain ⟨script, guards, call, output, results⟩ := a
  have h1 := h.script
  have h2 := h.call
  unfold Agent.asks at ha
  unfold Agent.holds
  dsimp only at h1 h2 ha ⊢
  intro x hx
  split at ha
  · cases ha
    rcases List.mem_append.mp hx with hx | hx
    · obtain ⟨f, hf, rfl⟩ := List.mem_map.mp hx
      exact h2.asks.1 f hf
    · exact h2.asks.2 x.1 (List.mem_map_of_mem hx)
  · cases ha
    rcases List.mem_append.mp hx with hx | hx
    · cases hx
    · exact h1.1 x.1 (List.mem_map_of_mem hx)
  · cases ha

theorem Agent.Ok.done {a : Agent} (h : a.Ok rank) (hd : Done a) : a.holds = [] := by
  obtain ⟨script, guards, call, output, results⟩ := a
  obtain ⟨h1, h2⟩ := hd
  have h3 := h.script
  dsimp only at h1 h2 h3
  subst h1 h2
  exact List.map_eq_nil_iff.mp h3

theorem Agent.next_isSome {kind : Nat → LockKind} {content : Nat → List Piece} {a : Agent} (h : ¬Done a) :
    ∃ a' w, a.next kind content = some (a', w) := by
  obtain ⟨script, guards, call, output, results⟩ := a
  unfold Agent.next
  dsimp only
  split
  · split <;> exact ⟨_, _, rfl⟩
  all_goals first | exact ⟨_, _, rfl⟩ | skip
  split
  · exact absurd ⟨rfl, rfl⟩ h
  all_goals first | exact ⟨_, _, rfl⟩ | skip
  split <;> exact ⟨_, _, rfl⟩

/-- The invariant. -/
structure Guards.Inv (rank : Nat → Nat) (s : Guards) : Prop where
  content : ∀ r, Below rank (rank r) (s.content r)
  agent : ∀ a ∈ s.agents, a.Ok rank

/-- What a step is. -/
theorem Guards.step_some {s s' : Guards} {k : Nat} (hs : s.step joins k = some s') :
    ∃ a a' w, s.agents[k]? = some a ∧ (∀ g, a.asks = some g → s.lets joins g = true) ∧
      a.next s.kind s.content = some (a', w) ∧
      s' = { s with agents := s.agents.set k a', content := wrote s.content w } := by
  unfold Guards.step at hs
  cases ha : s.agents[k]? with
  | none => rw [ha] at hs; cases hs
  | some a =>
    rw [ha] at hs
    simp only at hs
    cases hn : a.next s.kind s.content with
    | none => rw [hn] at hs; simp at hs
    | some p =>
      obtain ⟨a', w⟩ := p
      rw [hn] at hs
      simp only at hs
      cases hg : a.asks with
      | none =>
        rw [hg] at hs
        simp only [if_true] at hs
        cases hs
        exact ⟨a, a', w, rfl, fun g h => (nomatch hg ▸ h), hn, rfl⟩
      | some g =>
        rw [hg] at hs
        simp only at hs
        cases hl : s.lets joins g with
        | false => rw [if_neg (by rw [hl]; exact Bool.false_ne_true)] at hs; cases hs
        | true =>
          rw [if_pos hl] at hs
          cases hs
          refine ⟨a, a', w, rfl, fun g' h => ?_, hn, rfl⟩
          cases hg.symm.trans h
          exact hl

theorem Guards.Inv.step {s s' : Guards} {k : Nat} (h : s.Inv rank) (hs : s.step joins k = some s') :
    s'.Inv rank := by
  obtain ⟨a, a', w, ha, _, hn, rfl⟩ := Guards.step_some hs
  obtain ⟨h1, h2⟩ := (h.agent a (List.mem_of_getElem? ha)).next h.content hn
  constructor
  · intro r
    show Below rank (rank r) (wrote s.content w r)
    cases w with
    | none => exact h.content r
    | some p =>
      show Below rank (rank r) (if r = p.1 then p.2 else s.content r)
      split
      · next e => rw [e]; exact h2 p.1 p.2 rfl
      · exact h.content r
  · intro b hb
    rcases List.mem_or_eq_of_mem_set hb with hb | rfl
    · exact h.agent b hb
    · exact h1

theorem Guards.Inv.run {s : Guards} (h : s.Inv rank) (ks : List Nat) : (s.run joins ks).Inv rank := by
  induction ks generalizing s with
  | nil => exact h
  | cons k ks ih =>
    show (((s.step joins k).getD s).run joins ks).Inv rank
    cases hs : s.step joins k with
    | none => exact ih h
    | some s' => exact ih (h.step hs)

/-- Who does not get a guard waits for somebody who has one. -/
theorem Guards.not_lets {s : Guards} {g : Nat × Bool} (h : s.lets joins g = false) :
    ∃ a ∈ s.agents, ∃ x ∈ a.holds, x.1 = g.1 := by
  cases hg : s.guardsOf g.1 with
  | nil =>
    unfold Guards.lets at h
    rw [hg] at h
    split at h <;> simp at h
  | cons x l =>
    have hx : x ∈ s.guardsOf g.1 := by rw [hg]; exact List.mem_cons_self ..
    obtain ⟨h1, h2⟩ := List.mem_filter.mp hx
    obtain ⟨a, ha, h3⟩ := List.mem_flatMap.mp h1
    exact ⟨a, ha, x, h3, beq_iff_eq.mp h2⟩

/-- Who cannot make a step waits for a guard. -/
theorem Guards.stuck {s : Guards} {a : Agent} (hn : ∀ k, s.step joins k = none) (ha : a ∈ s.agents)
    (hd : ¬Done a) : ∃ g, a.asks = some g ∧ s.lets joins g = false := by
  obtain ⟨k, hk⟩ := List.getElem?_of_mem ha
  have h1 := hn k
  obtain ⟨a', w, h2⟩ := Agent.next_isSome (kind := s.kind) (content := s.content) hd
  unfold Guards.step at h1
  rw [hk] at h1
  simp only [h2] at h1
  cases hg : a.asks with
  | none => rw [hg] at h1; simp at h1
  | some g =>
    refine ⟨g, rfl, ?_⟩
    rw [hg] at h1
    cases hl : s.lets joins g with
    | false => rfl
    | true => simp only [hl, if_true] at h1; cases h1

theorem Guards.Inv.no_deadlock {s : Guards} (h : s.Inv rank) : ¬GuardDeadlock joins s := by
  rintro ⟨⟨a, ha, hd⟩, hn⟩
  have key : ∀ n a, a ∈ s.agents → ¬Done a → ∀ g, a.asks = some g → s.lets joins g = false →
      rank g.1 = n → False := by
    intro n
    induction n using Nat.strongRecOn with
    | _ n ih =>
      intro a ha hd g hg hl hr
      obtain ⟨a1, ha1, x, hx, hx'⟩ := Guards.not_lets hl
      have hd1 : ¬Done a1 := fun h1 => by
        rw [(h.agent a1 ha1).done h1] at hx
        cases hx
      obtain ⟨g1, hg1, hl1⟩ := Guards.stuck hn ha1 hd1
      have := (h.agent a1 ha1).asks hg1 x hx
      exact ih (rank g1.1) (by rw [← hr, ← hx']; exact this) a1 ha1 hd1 g1 hg1 hl1 rfl
  obtain ⟨g, hg, hl⟩ := Guards.stuck hn ha hd
  exact key _ a ha hd g hg hl rfl

/-! ## The number of steps -/

def Cmd.weight (b : Nat) (rank : Nat → Nat) : Cmd → Nat
  | .guard _ _ => 1
  | .drop _ => 1
  | .set _ _ => 1
  | .encode c => 2 + weights b rank c
  | .through r => (b + 2) ^ (rank r + 1)

def Call.weight (b : Nat) (rank : Nat → Nat) : Call → Nat
  | .idle => 0
  | .encoding c held => 1 + weights b rank c + (held.map fun f => 1 + weights b rank f.rest).sum
  | .failing _ held => 1 + held.length

def Agent.weight (b : Nat) (rank : Nat → Nat) (a : Agent) : Nat :=
  (a.script.map (Cmd.weight b rank)).sum + a.call.weight b rank

/-- A step of a thread leaves it fewer steps, and nothing longer. -/
theorem Agent.next_weight {kind : Nat → LockKind} {content : Nat → List Piece} {a a' : Agent}
    {w : Option (Nat × List Piece)} {b : Nat} (hc : ∀ r, Below rank (rank r) (content r))
    (hb : ∀ r, (content r).length ≤ b) (hs : ShortSets b a.script)
    (hn : a.next kind content = some (a', w)) :
    a'.weight b rank < a.weight b rank ∧ ShortSets b a'.script ∧
      ∀ r c, w = some (r, c) → c.length ≤ b := by
  have hw := fun r => weights_content b r (content r) (hc r) (hb r)
  obtain ⟨script, guards, call, output, results⟩ := a
  unfold Agent.next at hn
  dsimp only at hn hs
  have htail : ∀ {x : Cmd} {cs : List Cmd}, script = x :: cs → ShortSets b cs := by
    rintro x cs rfl
    exact fun r c h => hs r c (List.mem_cons_of_mem _ h)
  split at hn
  · split at hn
    · cases hn
      refine ⟨?_, hs, fun _ _ h => nomatch h⟩
      simp only [Agent.weight, Call.weight, weights_cons, Piece.weight]
      omega
    · cases hn
      refine ⟨?_, hs, fun _ _ h => nomatch h⟩
      rename_i held _ _
      have := length_le_frames (rank := rank) b held
      simp only [Agent.weight, Call.weight, weights_cons, Piece.weight]
      omega
  · cases hn
    refine ⟨?_, hs, fun _ _ h => nomatch h⟩
    rename_i r g cur held
    have := hw r
    simp only [Agent.weight, Call.weight, weights_cons, Piece.weight, List.map_cons, List.sum_cons]
    omega
  · cases hn
    refine ⟨?_, hs, fun _ _ h => nomatch h⟩
    simp only [Agent.weight, Call.weight, weights, List.map_nil, List.map_cons, List.sum_nil, List.sum_cons]
    omega
  · cases hn
    refine ⟨?_, hs, fun _ _ h => nomatch h⟩
    simp only [Agent.weight, Call.weight]
    omega
  · cases hn
    refine ⟨?_, hs, fun _ _ h => nomatch h⟩
    simp only [Agent.weight, Call.weight, List.length_cons]
    omega
  · cases hn
    refine ⟨?_, hs, fun _ _ h => nomatch h⟩
    simp only [Agent.weight, Call.weight]
    omega
  · cases hn
    refine ⟨?_, fun r c h => absurd h List.not_mem_nil, fun _ _ h => nomatch h⟩
    simp only [Agent.weight, Call.weight, List.map_nil, List.sum_nil]
    omega
  · split at hn
    · cases hn
    · cases hn
      refine ⟨?_, htail rfl, fun _ _ h => nomatch h⟩
      simp only [Agent.weight, Call.weight, Cmd.weight, List.map_cons, List.sum_cons]
      omega
    · cases hn
      refine ⟨?_, htail rfl, fun _ _ h => nomatch h⟩
      simp only [Agent.weight, Call.weight, Cmd.weight, List.map_cons, List.sum_cons]
      omega
    · cases hn
      refine ⟨?_, htail rfl, fun r c h => ?_⟩
      · simp only [Agent.weight, Call.weight, Cmd.weight, List.map_cons, List.sum_cons]
        omega
      · split at h
        · cases h
          exact hs _ _ (List.mem_cons_self ..)
        · cases h
    · cases hn
      refine ⟨?_, htail rfl, fun _ _ h => nomatch h⟩
      simp only [Agent.weight, Call.weight, Cmd.weight, List.map_cons, List.sum_cons, List.map_nil, List.sum_nil]
      omega
    · rename_i r cs
      have := hw r
      split at hn
      · cases hn
        refine ⟨?_, htail rfl, fun _ _ h => nomatch h⟩
        simp only [Agent.weight, Call.weight, Cmd.weight, List.map_cons, List.sum_cons, List.map_nil, List.sum_nil]
        omega
      · cases hn
        refine ⟨?_, htail rfl, fun _ _ h => nomatch h⟩
        simp only [Agent.weight, Call.weight, Cmd.weight, List.map_cons, List.sum_cons]
        omega

structure Guards.Short (b : Nat) (s : Guards) : Prop where
  content : ∀ r, (s.content r).length ≤ b
  agent : ∀ a ∈ s.agents, ShortSets b a.script

def Guards.weight (b : Nat) (rank : Nat → Nat) (s : Guards) : Nat :=
  (s.agents.map (Agent.weight b rank)).sum

theorem sum_set {α : Type} (f : α → Nat) (l : List α) (k : Nat) (x y : α) (h : l[k]? = some x) :
    ((l.set k y).map f).sum + f x = (l.map f).sum + f y := by
  induction l generalizing k with
  | nil => cases h
  | cons z l ih =>
    cases k with
    | zero =>
      cases h
      simp only [List.set_cons_zero, List.map_cons, List.sum_cons]
      omega
    | succ k =>
      have := ih k h
      simp only [List.set_cons_succ, List.map_cons, List.sum_cons]
      omega

theorem Guards.step_weight {s s' : Guards} {k b : Nat} (h : s.Inv rank) (hb : s.Short b)
    (hs : s.step joins k = some s') : s'.weight b rank < s.weight b rank ∧ s'.Short b := by
  obtain ⟨a, a', w, ha, _, hn, rfl⟩ := Guards.step_some hs
  obtain ⟨h1, h2, h3⟩ := Agent.next_weight h.content hb.content (hb.agent a (List.mem_of_getElem? ha)) hn
  refine ⟨?_, ?_, ?_⟩
  · have := sum_set (Agent.weight b rank) s.agents k a a' ha
    show ((s.agents.set k a').map _).sum < (s.agents.map _).sum
    omega
  · intro r
    show (wrote s.content w r).length ≤ b
    cases w with
    | none => exact hb.content r
    | some p =>
      show (if r = p.1 then p.2 else s.content r).length ≤ b
      split
      · exact h3 p.1 p.2 rfl
      · exact hb.content r
  · intro c hc
    rcases List.mem_or_eq_of_mem_set hc with hc | rfl
    · exact hb.agent c hc
    · exact h2

theorem Guards.made_le {b : Nat} {s : Guards} (h : s.Inv rank) (hb : s.Short b) (ks : List Nat) :
    s.made joins ks ≤ s.weight b rank := by
  induction ks generalizing s with
  | nil => exact Nat.zero_le _
  | cons k ks ih =>
    show (if (s.step joins k).isSome then 1 else 0) + ((s.step joins k).getD s).made joins ks ≤ _
    cases hs : s.step joins k with
    | none => simpa using ih h hb
    | some s' =>
      obtain ⟨h1, h2⟩ := Guards.step_weight h hb hs
      have h3 := ih (h.step hs) h2
      simp only [Option.isSome_some, if_true, Option.getD_some]
      omega

theorem Guards.finishes {b : Nat} : ∀ (w : Nat) (s : Guards), s.weight b rank = w → s.Inv rank →
    s.Short b → ∃ ks, ∀ a ∈ (s.run joins ks).agents, Done a := by
  intro w
  induction w using Nat.strongRecOn with
  | _ w ih =>
    intro s hw h hb
    by_cases ho : ∀ a ∈ s.agents, Done a
    · exact ⟨[], ho⟩
    · have hd : ¬∀ k, s.step joins k = none := fun hd => by
        refine h.no_deadlock (joins := joins) ⟨?_, hd⟩
        obtain ⟨a, ha⟩ := Classical.not_forall.mp ho
        exact ⟨a, Classical.not_imp.mp ha⟩
      obtain ⟨k, hk⟩ := Classical.not_forall.mp hd
      cases hs : s.step joins k with
      | none => exact absurd hs hk
      | some s' =>
        obtain ⟨h1, h2⟩ := Guards.step_weight h hb hs
        obtain ⟨ks, hks⟩ := ih _ (hw ▸ h1) s' rfl (h.step hs) h2
        refine ⟨k :: ks, ?_⟩
        show ∀ a ∈ (((s.step joins k).getD s).run joins ks).agents, Done a
        rw [hs]
        exact hks

theorem Guards.Short.run {b : Nat} {s : Guards} (h : s.Inv rank) (hb : s.Short b) (ks : List Nat) :
    (s.run joins ks).Short b := by
  induction ks generalizing s with
  | nil => exact hb
  | cons k ks ih =>
    show (((s.step joins k).getD s).run joins ks).Short b
    cases hs : s.step joins k with
    | none => exact ih h hb
    | some s' => exact ih (h.step hs) (Guards.step_weight h hb hs).2

end Oct
