import Verif.Proofs.LazyMade
/- Threads that encode lazy values in order come to an end: C120. -/
namespace Oct
open Spec

/-- How many steps an initialiser has left, without those of the values it forces. -/
inductive MakerSteps (init : Nat → Maker) : Maker → Nat → Prop
  | gives {v : List Part} : MakerSteps init (.gives v) 1
  | panics : MakerSteps init .panics 1
  | forces {k n : Nat} {next : List Part → Maker} {v : List Part} :
    Makes init (init k) (some v) → MakerSteps init (next v) n → MakerSteps init (.forces k next) (n + 1)
  | forcesNone {k : Nat} {next : List Part → Maker} :
    Makes init (init k) none → MakerSteps init (.forces k next) 1

/-- How many steps an encoder has left at most, without those of initialisers. -/
inductive TodoSteps (init : Nat → Maker) : List Part → Nat → Prop
  | nil : TodoSteps init [] 1
  | plain {m : Enc Unit} {c : List Part} {n : Nat} :
    TodoSteps init c n → TodoSteps init (.plain m :: c) (n + 1)
  | lazy {k n : Nat} {g : EncErr → EncErr} {v c : List Part} :
    Makes init (init k) (some v) → TodoSteps init (v.map (Part.under g) ++ c) n →
      TodoSteps init (.lazy k g :: c) (n + 1)
  | lazyNone {k : Nat} {g : EncErr → EncErr} {c : List Part} :
    Makes init (init k) none → TodoSteps init (.lazy k g :: c) 1

theorem makerSteps_unique {init : Nat → Maker} {m : Maker} {n n' : Nat} (h : MakerSteps init m n)
    (h' : MakerSteps init m n') : n = n' := by
  induction h generalizing n' with
  | gives => cases h'; rfl
  | panics => cases h'; rfl
  | forces hk _ ih =>
    cases h' with
    | forces hk' h2 => cases makes_unique hk hk'; exact congrArg (· + 1) (ih h2)
    | forcesNone hk' => cases makes_unique hk hk'
  | forcesNone hk =>
    cases h' with
    | forces hk' h2 => cases makes_unique hk hk'
    | forcesNone hk' => rfl

theorem todoSteps_unique {init : Nat → Maker} {c : List Part} {n n' : Nat} (h : TodoSteps init c n)
    (h' : TodoSteps init c n') : n = n' := by
  induction h generalizing n' with
  | nil => cases h'; rfl
  | plain _ ih => cases h' with | plain h2 => exact congrArg (· + 1) (ih h2)
  | lazy hk _ ih =>
    cases h' with
    | lazy hk' h2 => cases makes_unique hk hk'; exact congrArg (· + 1) (ih h2)
    | lazyNone hk' => cases makes_unique hk hk'
  | lazyNone hk =>
    cases h' with
    | lazy hk' h2 => cases makes_unique hk hk'
    | lazyNone hk' => rfl

theorem makerSteps_exists {init : Nat → Maker} (hi : InOrder init) {n : Nat} {m : Maker}
    (h : MakerBelow n m) : ∃ w, MakerSteps init m w := by
  induction h with
  | gives => exact ⟨_, .gives⟩
  | panics => exact ⟨_, .panics⟩
  | @forces k next hk _ ih =>
    obtain ⟨r, hr⟩ := makes_exists hi k (hi k)
    cases r with
    | none => exact ⟨_, .forcesNone hr⟩
    | some v =>
      obtain ⟨w, hw⟩ := ih v (makes_below hi hr (hi k) rfl)
      exact ⟨_, .forces hr hw⟩

theorem partsBelow_under {n : Nat} {v : List Part} (g : EncErr → EncErr) (h : PartsBelow n v) :
    PartsBelow n (v.map (Part.under g)) := by
  intro k g' hk
  obtain ⟨p, hp, e⟩ := List.mem_map.mp hk
  cases p with
  | plain m => cases e
  | lazy k' g'' => cases e; exact h k g'' hp

theorem todoSteps_append {init : Nat → Maker} (hi : InOrder init) : ∀ (n : Nat) (v c : List Part) (w : Nat),
    PartsBelow n v → TodoSteps init c w → ∃ w', TodoSteps init (v ++ c) w' := by
  intro n
  induction n using Nat.strongRecOn with
  | _ n ih =>
    intro v
    induction v with
    | nil => exact fun c w _ h => ⟨w, h⟩
    | cons p v ihv =>
      intro c w hb h
      obtain ⟨w1, h1⟩ := ihv c w (fun k g h => hb k g (List.mem_cons_of_mem _ h)) h
      cases p with
      | plain m => exact ⟨_, .plain h1⟩
      | lazy k g =>
        obtain ⟨r, hr⟩ := makes_exists hi k (hi k)
        cases r with
        | none => exact ⟨_, .lazyNone hr⟩
        | some v' =>
          obtain ⟨w2, h2⟩ := ih k (hb k g List.mem_cons_self) (v'.map (Part.under g)) (v ++ c) w1
            (partsBelow_under g (makes_below hi hr (hi k) rfl)) h1
          exact ⟨_, .lazy hr h2⟩

theorem todoSteps_exists {init : Nat → Maker} (hi : InOrder init) {n : Nat} {c : List Part}
    (h : PartsBelow n c) : ∃ w, TodoSteps init c w := by
  obtain ⟨w, hw⟩ := todoSteps_append hi n c [] 1 h .nil
  rw [List.append_nil] at hw
  exact ⟨w, hw⟩

open Classical in
noncomputable def makerWeight (init : Nat → Maker) (m : Maker) : Nat :=
  if h : ∃ n, MakerSteps init m n then h.choose else 0

open Classical in
noncomputable def todoWeight (init : Nat → Maker) (c : List Part) : Nat :=
  if h : ∃ n, TodoSteps init c n then h.choose else 0

theorem makerWeight_eq {init : Nat → Maker} {m : Maker} {n : Nat} (h : MakerSteps init m n) :
    makerWeight init m = n := by
  have hx : ∃ n, MakerSteps init m n := ⟨n, h⟩
  unfold makerWeight
  rw [dif_pos hx]
  exact makerSteps_unique hx.choose_spec h

theorem todoWeight_eq {init : Nat → Maker} {c : List Part} {n : Nat} (h : TodoSteps init c n) :
    todoWeight init c = n := by
  have hx : ∃ n, TodoSteps init c n := ⟨n, h⟩
  unfold todoWeight
  rw [dif_pos hx]
  exact todoSteps_unique hx.choose_spec h

noncomputable def makingWeight (init : Nat → Maker) (ms : List (Nat × Maker)) : Nat :=
  (ms.map fun km => makerWeight init km.2).sum

noncomputable def LazyThread.weight (init : Nat → Maker) (t : LazyThread) : Nat :=
  match t.ending with
  | none => makingWeight init t.making + todoWeight init t.todo
  | some _ => 0

noncomputable def LazyState.weight (init : Nat → Maker) (k : Nat) : LazyState → Nat
  | .fresh => makerWeight init (init k) + 1
  | _ => 0

/-- The sum of the first `n` numbers. -/
def sumTo (f : Nat → Nat) : Nat → Nat
  | 0 => 0
  | n + 1 => sumTo f n + f n

theorem sumTo_le {f f' : Nat → Nat} (n : Nat) (h : ∀ j, j < n → f' j ≤ f j) : sumTo f' n ≤ sumTo f n := by
  induction n with
  | zero => exact Nat.le_refl 0
  | succ n ih =>
    exact Nat.add_le_add (ih fun j hj => h j (Nat.lt_succ_of_lt hj)) (h n (Nat.lt_succ_self n))

/-- One of the numbers changes by `a` and `b`. -/
theorem sumTo_change {f f' : Nat → Nat} {n i a b : Nat} (hi : i < n) (he : ∀ j, j ≠ i → f' j = f j)
    (h : f' i + a ≤ f i + b) : sumTo f' n + a ≤ sumTo f n + b := by
  induction n with
  | zero => cases hi
  | succ n ih =>
    show sumTo f' n + f' n + a ≤ sumTo f n + f n + b
    by_cases hn : i = n
    · subst hn
      have : sumTo f' i ≤ sumTo f i :=
        sumTo_le i fun j hj => Nat.le_of_eq (he j (Nat.ne_of_lt hj))
      omega
    · have := ih (Nat.lt_of_le_of_ne (Nat.le_of_lt_succ hi) hn)
      have e := he n (fun e => hn e.symm)
      omega

/-- A bound of how many steps `n` threads can make that encode values with numbers below `b`. -/
noncomputable def Lazies.weight (init : Nat → Maker) (b n : Nat) (s : Lazies) : Nat :=
  sumTo (fun k => (s.state k).weight init k) b + sumTo (fun i => (s.thread i).weight init) n

/-- What holds if the values have numbers below `b` and only the first `n` threads make steps. -/
structure Lazies.Within (b n : Nat) (s : Lazies) : Prop where
  below : ∀ i, i < n → PartsBelow b (s.thread i).todo
  idle : ∀ i, n ≤ i → (s.thread i).making = []

theorem Chain.bounded {init : Nat → Maker} {todo : List Part} {b : Nat} (hb : PartsBelow b todo) :
    ∀ {ms : List (Nat × Maker)}, Chain init todo ms → ∀ k, k ∈ ms.map Prod.fst → k < b := by
  intro ms
  induction ms with
  | nil => exact fun _ _ h => (nomatch h)
  | cons km ms ih =>
    obtain ⟨k1, m1⟩ := km
    intro h k hk
    rcases List.mem_cons.mp hk with e | hk
    · have e : k = k1 := e
      subst e
      cases ms with
      | nil =>
        obtain ⟨_, _, ⟨g, rest, hw⟩, _⟩ := h
        exact hb k g (by rw [hw]; exact List.mem_cons_self)
      | cons km2 ms =>
        exact Nat.lt_trans (Chain.least h km2.1 List.mem_cons_self) (ih h.2.2.2 km2.1 List.mem_cons_self)
    · exact ih h.2.2.2 k hk

variable {init : Nat → Maker} {todo0 : Nat → List Part} {o0 : Nat → Output} {b n : Nat}

theorem Lazies.Ordered.asks_lt {s : Lazies} (h : s.Ordered init todo0 o0) (hw : s.Within b n) {i k : Nat}
    (hi : i < n) (hk : (s.thread i).asks = some k) : k < b := by
  rcases LazyThread.asks_cases hk with ⟨_, g, rest, ht⟩ | ⟨k', next, ms, hm⟩
  · exact hw.below i hi k g (by rw [ht]; exact List.mem_cons_self)
  · have hc := h.chain i
    have hlt := Chain.bounded (hw.below i hi) hc k' (by rw [hm]; exact List.mem_cons_self)
    rw [hm] at hc
    cases hc.1 with
    | forces hk _ => exact Nat.lt_trans hk hlt

theorem Lazies.Within.goto {s : Lazies} (h : s.Within b n) {i : Nat} (hi : i < n) {t : LazyThread}
    (ht : PartsBelow b t.todo) : (s.goto i t).Within b n where
  below := fun j hn => by
    by_cases hj : j = i
    · subst hj; rw [Lazies.goto_self]; exact ht
    · rw [Lazies.goto_other _ _ hj]; exact h.below j hn
  idle := fun j hn => by
    rw [Lazies.goto_other _ _ (fun e => by omega)]; exact h.idle j hn

theorem Lazies.Within.step {s s' : Lazies} {i : Nat} (h : s.Ordered init todo0 o0) (hw : s.Within b n)
    (hi : i < n) (hs : s.step i = some s') : s'.Within b n := by
  have hmark : ∀ k m, (s.mark k m).Within b n := fun k m => ⟨hw.below, hw.idle⟩
  have hun : (s.unwind i).Within b n :=
    Lazies.Within.goto (s := { s with state := fun k => (if k ∈ (s.thread i).making.map Prod.fst
      then .poisoned else s.state k) }) ⟨hw.below, hw.idle⟩ hi (hw.below i hi)
  cases Lazies.step_cases hs with
  | @calls k hk hf =>
    exact Lazies.Within.goto (s := { s.mark k (.busy i) with called := k :: s.called })
      ⟨hw.below, hw.idle⟩ hi (hw.below i hi)
  | @told k v hk hr =>
    have hlt := h.asks_lt hw hi hk
    refine hw.goto hi ?_
    rcases LazyThread.asks_cases hk with ⟨hm, g, rest, ht⟩ | ⟨k', next, ms, hm⟩
    · rw [LazyThread.told_lazy hm ht v]
      have hv := makes_below h.order (h.ready k v hr) (h.order k) rfl
      intro k' g' hk'
      rcases List.mem_append.mp hk' with h' | h'
      · exact Nat.lt_trans (partsBelow_under g hv k' g' h') hlt
      · exact hw.below i hi k' g' (by rw [ht]; exact List.mem_cons_of_mem _ h')
    · have e : ((s.thread i).told v).todo = (s.thread i).todo := by
        unfold LazyThread.told
        rw [hm]
      rw [e]
      exact hw.below i hi
  | poisoned hk hp => exact hun
  | itself hk hb hc => exact hun
  | gives he hm => exact (hmark _ _).goto hi (hw.below i hi)
  | panics he hm => exact hun
  | plain he hm ht hr =>
    refine hw.goto hi (fun k g hk => hw.below i hi k g ?_)
    rw [ht]
    exact List.mem_cons_of_mem _ hk
  | plainFails he hm ht hr hn => exact hw.goto hi (hw.below i hi)
  | nil he hm ht => exact hw.goto hi (hw.below i hi)

theorem LazyThread.weight_open {t : LazyThread} (h : t.ending = none) :
    t.weight init = makingWeight init t.making + todoWeight init t.todo := by
  unfold LazyThread.weight
  rw [h]

/-- A thread goes on, and values are only made further. -/
theorem weight_lt {s s' : Lazies} {i : Nat} (hi : i < n)
    (ho : ∀ j, j ≠ i → s'.thread j = s.thread j)
    (hst : ∀ k, (s'.state k).weight init k ≤ (s.state k).weight init k)
    (h : (s'.thread i).weight init < (s.thread i).weight init) :
    s'.weight init b n < s.weight init b n := by
  have h1 : sumTo (fun k => (s'.state k).weight init k) b ≤ sumTo (fun k => (s.state k).weight init k) b :=
    sumTo_le b fun k _ => hst k
  have h2 := sumTo_change (f := fun i => (s.thread i).weight init)
    (f' := fun i => (s'.thread i).weight init) (a := 1) (b := 0) hi
    (fun j hj => by show (s'.thread j).weight init = _; rw [ho j hj]) h
  unfold Lazies.weight
  omega

theorem todoWeight_pos (h : InOrder init) {c : List Part} (hb : PartsBelow b c) :
    0 < todoWeight init c := by
  obtain ⟨w, hw⟩ := todoSteps_exists h hb
  rw [todoWeight_eq hw]
  cases hw <;> exact Nat.succ_pos _

theorem Lazies.step_weight {s s' : Lazies} {i : Nat} (h : s.Ordered init todo0 o0) (hw : s.Within b n)
    (hi : i < n) (hs : s.step i = some s') : s'.weight init b n < s.weight init b n := by
  have hun : (s.thread i).ending = none → (s.unwind i).weight init b n < s.weight init b n := by
    intro he
    refine weight_lt hi (fun j hj => Lazies.goto_other _ _ hj) (fun k => ?_) ?_
    · show (if k ∈ (s.thread i).making.map Prod.fst then LazyState.poisoned else s.state k).weight init k ≤ _
      split
      · exact Nat.zero_le _
      · exact Nat.le_refl _
    · unfold Lazies.unwind
      rw [Lazies.goto_self, LazyThread.weight_open he]
      show 0 < _
      have := todoWeight_pos h.order (hw.below i hi)
      omega
  cases Lazies.step_cases hs with
  | @calls k hk hf =>
    have he := LazyThread.asks_ending hk
    have hlt := h.asks_lt hw hi hk
    have h1 := sumTo_change (f := fun k' => (s.state k').weight init k')
      (f' := fun k' => (if k' = k then LazyState.busy i else s.state k').weight init k')
      (n := b) (i := k) (a := makerWeight init (init k) + 1) (b := 0) hlt
      (fun j hj => by show (if j = k then LazyState.busy i else s.state j).weight init j = _; rw [if_neg hj])
      (by show (if k = k then LazyState.busy i else s.state k).weight init k + _ ≤ (s.state k).weight init k + 0
          rw [if_pos rfl, hf]
          exact Nat.le_of_eq (Nat.zero_add _))
    have h2 := sumTo_change (f := fun j => (s.thread j).weight init)
      (f' := fun j => (if j = i then { s.thread i with making := (k, s.init k) :: (s.thread i).making }
        else s.thread j).weight init)
      (n := n) (i := i) (a := 0) (b := makerWeight init (init k)) hi
      (fun j hj => by
        show (if j = i then { s.thread i with making := (k, s.init k) :: (s.thread i).making }
          else s.thread j).weight init = _
        rw [if_neg hj])
      (by show (if i = i then { s.thread i with making := (k, s.init k) :: (s.thread i).making }
            else s.thread i).weight init + 0 ≤ (s.thread i).weight init + _
          rw [if_pos rfl, LazyThread.weight_open he, LazyThread.weight_open (by exact he)]
          show makerWeight init (s.init k) + makingWeight init (s.thread i).making + _ + 0 ≤ _
          rw [h.same]
          show _ + todoWeight init (s.thread i).todo + 0 ≤ _
          omega)
    show sumTo _ b + sumTo _ n < sumTo _ b + sumTo _ n
    exact Nat.lt_of_lt_of_le (Nat.lt_of_lt_of_le (Nat.lt_succ_self _) (by
      show _ + _ + 1 ≤ _
      exact Nat.le_of_add_le_add_right (b := makerWeight init (init k)) (by
        have := Nat.add_le_add h1 h2
        show sumTo (fun k' => (if k' = k then LazyState.busy i else s.state k').weight init k') b +
          sumTo (fun j => (if j = i then { s.thread i with making := (k, s.init k) :: (s.thread i).making }
            else s.thread j).weight init) n + 1 + makerWeight init (init k) ≤
          sumTo (fun k' => (s.state k').weight init k') b + sumTo (fun j => (s.thread j).weight init) n +
            makerWeight init (init k)
        omega))) (Nat.le_refl _)
  | @told k v hk hr =>
    have he := LazyThread.asks_ending hk
    have hv := h.ready k v hr
    refine weight_lt hi (fun j hj => Lazies.goto_other _ _ hj) (fun _ => Nat.le_refl _) ?_
    rw [Lazies.goto_self]
    rcases LazyThread.asks_cases hk with ⟨hm, g, rest, ht⟩ | ⟨k', next, ms, hm⟩
    · rw [LazyThread.told_lazy hm ht v, LazyThread.weight_open he, LazyThread.weight_open (by exact he)]
      show _ + todoWeight init (v.map (Part.under g) ++ rest) < _
      obtain ⟨w, hw'⟩ := todoSteps_exists h.order (hw.below i hi)
      rw [todoWeight_eq hw']
      rw [ht] at hw'
      cases hw' with
      | lazy hv' hc =>
        cases makes_unique hv hv'
        rw [todoWeight_eq hc]
        exact Nat.lt_succ_self _
      | lazyNone hv' => cases makes_unique hv hv'
    · have e : (s.thread i).told v = { s.thread i with making := (k', next v) :: ms } := by
        unfold LazyThread.told
        rw [hm]
      rw [e, LazyThread.weight_open he, LazyThread.weight_open (by exact he), hm]
      show makerWeight init (next v) + makingWeight init ms + _ <
        makerWeight init (.forces k next) + makingWeight init ms + _
      have hc := h.chain i
      rw [hm] at hc
      obtain ⟨w, hw'⟩ := makerSteps_exists h.order hc.1
      rw [makerWeight_eq hw']
      cases hw' with
      | forces hv' hc =>
        cases makes_unique hv hv'
        rw [makerWeight_eq hc]
        show _ + _ + todoWeight init (s.thread i).todo < _
        omega
      | forcesNone hv' => cases makes_unique hv hv'
  | poisoned hk hp => exact hun (LazyThread.asks_ending hk)
  | itself hk hb hc => exact hun (LazyThread.asks_ending hk)
  | @gives k v ms he hm =>
    refine weight_lt hi (fun j hj => Lazies.goto_other _ _ hj) (fun k' => ?_) ?_
    · show (if k' = k then LazyState.ready v else s.state k').weight init k' ≤ _
      split
      · exact Nat.zero_le _
      · exact Nat.le_refl _
    · rw [Lazies.goto_self, LazyThread.weight_open he, LazyThread.weight_open (by exact he), hm]
      show makingWeight init ms + _ < makerWeight init (.gives v) + makingWeight init ms + _
      rw [makerWeight_eq .gives]
      show _ + todoWeight init (s.thread i).todo < _
      omega
  | panics he hm => exact hun he
  | @plain m rest o he hm ht hr =>
    refine weight_lt hi (fun j hj => Lazies.goto_other _ _ hj) (fun _ => Nat.le_refl _) ?_
    rw [Lazies.goto_self, LazyThread.weight_open he, LazyThread.weight_open (by exact he)]
    show _ + todoWeight init rest < _
    obtain ⟨w, hw'⟩ := todoSteps_exists h.order (hw.below i hi)
    rw [todoWeight_eq hw']
    rw [ht] at hw'
    cases hw' with
    | plain hc =>
      rw [todoWeight_eq hc]
      exact Nat.lt_succ_self _
  | plainFails he hm ht hr hn =>
    refine weight_lt hi (fun j hj => Lazies.goto_other _ _ hj) (fun _ => Nat.le_refl _) ?_
    rw [Lazies.goto_self, LazyThread.weight_open he]
    show 0 < _
    have := todoWeight_pos h.order (hw.below i hi)
    omega
  | nil he hm ht =>
    refine weight_lt hi (fun j hj => Lazies.goto_other _ _ hj) (fun _ => Nat.le_refl _) ?_
    rw [Lazies.goto_self, LazyThread.weight_open he]
    show 0 < _
    have := todoWeight_pos h.order (hw.below i hi)
    omega

theorem Lazies.made_le (is : List Nat) : ∀ {s : Lazies}, s.Ordered init todo0 o0 → s.Within b n →
    (∀ i ∈ is, i < n) → s.made is ≤ s.weight init b n := by
  induction is with
  | nil => exact fun _ _ _ => Nat.zero_le _
  | cons i is ih =>
    intro s h hw hi
    show (if (s.step i).isSome then 1 else 0) + ((s.step i).getD s).made is ≤ _
    cases hs : s.step i with
    | none =>
      have := ih h hw fun j hj => hi j (List.mem_cons_of_mem _ hj)
      show 0 + s.made is ≤ _
      omega
    | some s' =>
      have hlt := Lazies.step_weight h hw (hi i List.mem_cons_self) hs
      have := ih (h.step hs) (hw.step h (hi i List.mem_cons_self) hs)
        fun j hj => hi j (List.mem_cons_of_mem _ hj)
      show 1 + s'.made is ≤ _
      omega

theorem Lazies.Within.run (is : List Nat) : ∀ {s : Lazies}, s.Ordered init todo0 o0 → s.Within b n →
    (∀ i ∈ is, i < n) → (s.run is).Within b n := by
  induction is with
  | nil => exact fun _ hw _ => hw
  | cons i is ih =>
    intro s h hw hi
    show (((s.step i).getD s).run is).Within b n
    cases hs : s.step i with
    | none => exact ih h hw fun j hj => hi j (List.mem_cons_of_mem _ hj)
    | some s' =>
      exact ih (h.step hs) (hw.step h (hi i List.mem_cons_self) hs)
        fun j hj => hi j (List.mem_cons_of_mem _ hj)

/-- As long as one of the first `n` threads is not over, one of them can make a step. -/
theorem Lazies.Ordered.steps {s : Lazies} (h : s.Ordered init todo0 o0) (hw : s.Within b n) {i : Nat}
    (hi : i < n) (he : (s.thread i).ending = none) : ∃ j s', j < n ∧ s.step j = some s' := by
  by_cases hx : ∃ k j, (s.thread i).asks = some k ∧ s.state k = .busy j
  · obtain ⟨k, j, _, hj⟩ := hx
    obtain ⟨j', s', hs, hm⟩ := h.busy_steps k j hj
    refine ⟨j', s', ?_, hs⟩
    rcases Nat.lt_or_ge j' n with hlt | hge
    · exact hlt
    · exact absurd (hw.idle j' hge) hm
  · obtain ⟨s', hs⟩ := Lazies.step_some he (fun k j h1 h2 => hx ⟨k, j, h1, h2⟩)
    exact ⟨i, s', hi, hs⟩

theorem Lazies.Ordered.not_stuck {s : Lazies} (h : s.Ordered init todo0 o0) (hw : s.Within b n) :
    ¬Stuck n s := by
  intro ⟨⟨i, hi, he⟩, hn⟩
  obtain ⟨j, s', hj, hs⟩ := h.steps hw hi he
  rw [hn j hj] at hs
  cases hs

/-- There is a bound of the numbers of finitely many lazy values. -/
theorem partsBelow_bound (c : List Part) : ∃ b, PartsBelow b c := by
  induction c with
  | nil => exact ⟨0, fun _ _ h => (nomatch h)⟩
  | cons p c ih =>
    obtain ⟨b, hb⟩ := ih
    cases p with
    | plain m =>
      exact ⟨b, fun k g h => hb k g ((List.mem_cons.mp h).resolve_left fun e => (nomatch e))⟩
    | lazy k' g' =>
      refine ⟨b + k' + 1, fun k g h => ?_⟩
      rcases List.mem_cons.mp h with e | e
      · cases e; omega
      · have := hb k g e; omega

theorem partsBelow_bounds (todo : Nat → List Part) (n : Nat) :
    ∃ b, ∀ i, i < n → PartsBelow b (todo i) := by
  induction n with
  | zero => exact ⟨0, fun _ h => absurd h (Nat.not_lt_zero _)⟩
  | succ n ih =>
    obtain ⟨b, hb⟩ := ih
    obtain ⟨b', hb'⟩ := partsBelow_bound (todo n)
    refine ⟨b + b', fun i hi k g h => ?_⟩
    rcases Nat.lt_or_ge i n with hlt | hge
    · have := hb i hlt k g h; omega
    · have e : i = n := by omega
      subst e
      have := hb' k g h
      omega

theorem Lazies.start_within (cell : Nat → Bool) (init : Nat → Maker) (todo : Nat → List Part)
    (output : Nat → Output) (n : Nat) : ∃ b, (Lazies.start cell init todo output).Within b n := by
  obtain ⟨b, hb⟩ := partsBelow_bounds todo n
  exact ⟨b, hb, fun _ _ => rfl⟩

/-- The state after the first `t` entries of an endless schedule. -/
def Lazies.after (s : Lazies) (f : Nat → Nat) (t : Nat) : Lazies := s.run ((List.range t).map f)

theorem Lazies.after_succ (s : Lazies) (f : Nat → Nat) (t : Nat) :
    s.after f (t + 1) = ((s.after f t).step (f t)).getD (s.after f t) := by
  unfold Lazies.after
  rw [List.range_succ, List.map_append, Lazies.run_append]
  rfl

theorem Lazies.after_moves {s : Lazies} {f : Nat → Nat} (h : s.Ordered init todo0 o0) (hw : s.Within b n)
    (hf : ∀ t, f t < n) : ∀ (d t : Nat), (∃ s', (s.after f t).step (f (t + d)) = some s') →
    ∃ t', (s.after f t').weight init b n < (s.after f t).weight init b n := by
  have hall : ∀ t, (s.after f t).Ordered init todo0 o0 ∧ (s.after f t).Within b n := fun t =>
    ⟨h.run _, hw.run _ h fun i hi => by obtain ⟨x, _, rfl⟩ := List.mem_map.mp hi; exact hf x⟩
  intro d
  induction d with
  | zero =>
    intro t ⟨s', hs⟩
    refine ⟨t + 1, ?_⟩
    rw [Lazies.after_succ]
    rw [show f (t + 0) = f t from rfl] at hs
    rw [hs]
    exact Lazies.step_weight (hall t).1 (hall t).2 (hf t) hs
  | succ d ih =>
    intro t ⟨s', hs⟩
    cases hx : (s.after f t).step (f t) with
    | some s1 =>
      refine ⟨t + 1, ?_⟩
      rw [Lazies.after_succ, hx]
      exact Lazies.step_weight (hall t).1 (hall t).2 (hf t) hx
    | none =>
      have e : s.after f (t + 1) = s.after f t := by rw [Lazies.after_succ, hx]; rfl
      obtain ⟨t', ht'⟩ := ih (t + 1) ⟨s', by
        rw [e, show t + 1 + d = t + (d + 1) from by omega]; exact hs⟩
      rw [e] at ht'
      exact ⟨t', ht'⟩

/-- If each thread gets its turn again and again then all of them come to an end. -/
theorem Lazies.fair_ends {s : Lazies} {f : Nat → Nat} (h : s.Ordered init todo0 o0) (hw : s.Within b n)
    (hf : ∀ t, f t < n) (hfair : ∀ i, i < n → ∀ t, ∃ t', t ≤ t' ∧ f t' = i) :
    ∃ t, ∀ i, i < n → ((s.after f t).thread i).ending ≠ none := by
  have hall : ∀ t, (s.after f t).Ordered init todo0 o0 ∧ (s.after f t).Within b n := fun t =>
    ⟨h.run _, hw.run _ h fun i hi => by obtain ⟨x, _, rfl⟩ := List.mem_map.mp hi; exact hf x⟩
  suffices hs : ∀ w t, (s.after f t).weight init b n = w →
      ∃ t, ∀ i, i < n → ((s.after f t).thread i).ending ≠ none from hs _ 0 rfl
  intro w
  induction w using Nat.strongRecOn with
  | _ w ih =>
    intro t ht
    by_cases hx : ∃ i, i < n ∧ ((s.after f t).thread i).ending = none
    · obtain ⟨i, hi, he⟩ := hx
      obtain ⟨j, s', hj, hs⟩ := (hall t).1.steps (hall t).2 hi he
      obtain ⟨t', hle, hft⟩ := hfair j hj t
      obtain ⟨t2, ht2⟩ := Lazies.after_moves h hw hf (t' - t) t ⟨s', by
        rw [show t + (t' - t) = t' from by omega, hft]; exact hs⟩
      exact ih _ (ht ▸ ht2) t2 rfl
    · exact ⟨t, fun i hi he => hx ⟨i, hi, he⟩⟩

end Oct
