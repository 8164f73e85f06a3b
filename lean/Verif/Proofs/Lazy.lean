import Verif.Spec.Lazy
/- Lazy values are made once: C120. -/
namespace Oct
open Spec

/-- The cases of a step. -/
inductive LazyStep (s : Lazies) (i : Nat) : Lazies → Prop
  | calls {k : Nat} : (s.thread i).asks = some k → s.state k = .fresh →
    LazyStep s i ({ s.mark k (.busy i) with called := k :: s.called }.goto i
        { s.thread i with making := (k, s.init k) :: (s.thread i).making })
  | told {k : Nat} {v : List Part} : (s.thread i).asks = some k → s.state k = .ready v →
    LazyStep s i (s.goto i ((s.thread i).told v))
  | poisoned {k : Nat} : (s.thread i).asks = some k → s.state k = .poisoned →
    LazyStep s i (s.unwind i)
  | itself {k : Nat} : (s.thread i).asks = some k → s.state k = .busy i → s.cell k = true →
    LazyStep s i (s.unwind i)
  | gives {k : Nat} {v : List Part} {ms : List (Nat × Maker)} : (s.thread i).ending = none →
    (s.thread i).making = (k, .gives v) :: ms →
    LazyStep s i ((s.mark k (.ready v)).goto i { s.thread i with making := ms })
  | panics {k : Nat} {ms : List (Nat × Maker)} : (s.thread i).ending = none →
    (s.thread i).making = (k, .panics) :: ms → LazyStep s i (s.unwind i)
  | plain {m : Enc Unit} {rest : List Part} {o : Output} : (s.thread i).ending = none →
    (s.thread i).making = [] → (s.thread i).todo = .plain m :: rest →
    m (s.thread i).output = (.ok (), o) →
    LazyStep s i (s.goto i { s.thread i with todo := rest, output := o })
  | plainFails {m : Enc Unit} {rest : List Part} {o : Output} {r : Res EncErr Unit} :
    (s.thread i).ending = none → (s.thread i).making = [] → (s.thread i).todo = .plain m :: rest →
    m (s.thread i).output = (r, o) → r ≠ .ok () →
    LazyStep s i (s.goto i { s.thread i with output := o, ending := some (.encoded r) })
  | nil : (s.thread i).ending = none → (s.thread i).making = [] → (s.thread i).todo = [] →
    LazyStep s i (s.goto i { s.thread i with ending := some (.encoded (.ok ())) })

theorem Lazies.step_cases {s s' : Lazies} {i : Nat} (h : s.step i = some s') : LazyStep s i s' := by
  unfold Lazies.step at h
  split at h
  · next k hk =>
    split at h
    · next hs => cases h; exact .calls hk hs
    · next v hs => cases h; exact .told hk hs
    · next hs => cases h; exact .poisoned hk hs
    · next j hs =>
      split at h
      · next hc => obtain ⟨rfl, hc⟩ := hc; cases h; exact .itself hk hs hc
      · cases h
  · split at h
    · next he hm => cases h; exact .gives he hm
    · next he hm => cases h; exact .panics he hm
    · next he hm ht =>
      split at h
      · next hr => cases h; exact .plain he hm ht hr
      · next r o hn hr =>
        cases h
        exact .plainFails he hm ht hr (fun e => hn e)
    · next he hm ht => cases h; exact .nil he hm ht
    · cases h

/-- A thread can make a step unless it is over or asks for what is being made. -/
theorem Lazies.step_some {s : Lazies} {i : Nat} (he : (s.thread i).ending = none)
    (h : ∀ k j, (s.thread i).asks = some k → s.state k ≠ .busy j) : ∃ s', s.step i = some s' := by
  unfold Lazies.step
  split
  · next k hk =>
    split
    · exact ⟨_, rfl⟩
    · exact ⟨_, rfl⟩
    · exact ⟨_, rfl⟩
    · next j hj => exact absurd hj (h k j hk)
  · next hk =>
    unfold LazyThread.asks at hk
    rw [he] at hk ⊢
    cases hm : (s.thread i).making with
    | nil =>
      cases ht : (s.thread i).todo with
      | nil => exact ⟨_, rfl⟩
      | cons p rest =>
        cases p with
        | plain m => simp only; split <;> exact ⟨_, rfl⟩
        | lazy k g => rw [hm, ht] at hk; cases hk
    | cons km ms =>
      obtain ⟨k, m⟩ := km
      cases m with
      | gives v => exact ⟨_, rfl⟩
      | panics => exact ⟨_, rfl⟩
      | forces k' next => rw [hm] at hk; cases hk

theorem Lazies.goto_self (s : Lazies) (i : Nat) (t : LazyThread) : (s.goto i t).thread i = t :=
  if_pos rfl

theorem Lazies.goto_other (s : Lazies) {i j : Nat} (t : LazyThread) (h : j ≠ i) :
    (s.goto i t).thread j = s.thread j := if_neg h

theorem LazyThread.told_keys (t : LazyThread) (v : List Part) :
    (t.told v).making.map Prod.fst = t.making.map Prod.fst := by
  unfold LazyThread.told
  split
  · rfl
  · next h => rw [h]; rfl
  · rfl

theorem LazyThread.told_ending (t : LazyThread) (v : List Part) : (t.told v).ending = t.ending := by
  unfold LazyThread.told
  split <;> rfl

theorem LazyThread.told_output (t : LazyThread) (v : List Part) : (t.told v).output = t.output := by
  unfold LazyThread.told
  split <;> rfl

/-- What holds of any lazy values at any time. -/
structure Lazies.Inv (s : Lazies) : Prop where
  busy : ∀ k i, s.state k = .busy i ↔ k ∈ (s.thread i).making.map Prod.fst
  distinct : ∀ i, ((s.thread i).making.map Prod.fst).Nodup
  once : s.called.Nodup
  called : ∀ k, k ∈ s.called ↔ s.state k ≠ .fresh
  over : ∀ i, (s.thread i).ending ≠ none → (s.thread i).making = []

theorem Lazies.start_inv (cell : Nat → Bool) (init : Nat → Maker) (todo : Nat → List Part)
    (output : Nat → Output) : (Lazies.start cell init todo output).Inv where
  busy := fun _ _ => ⟨fun h => (nomatch h), fun h => (nomatch h)⟩
  distinct := fun _ => List.nodup_nil
  once := List.nodup_nil
  called := fun _ => ⟨fun h => (nomatch h), fun h => absurd rfl h⟩
  over := fun _ _ => rfl

/-- Only what a thread does to its initialisers matters. -/
theorem Lazies.Inv.goto {s : Lazies} (h : s.Inv) {i : Nat} {t : LazyThread}
    (hk : t.making.map Prod.fst = (s.thread i).making.map Prod.fst)
    (he : t.ending ≠ none → t.making = []) : (s.goto i t).Inv where
  busy := fun k j => by
    by_cases hj : j = i
    · subst hj; rw [Lazies.goto_self, hk]; exact h.busy k j
    · rw [Lazies.goto_other _ _ hj]; exact h.busy k j
  distinct := fun j => by
    by_cases hj : j = i
    · subst hj; rw [Lazies.goto_self, hk]; exact h.distinct j
    · rw [Lazies.goto_other _ _ hj]; exact h.distinct j
  once := h.once
  called := h.called
  over := fun j => by
    by_cases hj : j = i
    · subst hj; rw [Lazies.goto_self]; exact he
    · rw [Lazies.goto_other _ _ hj]; exact h.over j

theorem Lazies.Inv.unwind {s : Lazies} (h : s.Inv) (i : Nat) : (s.unwind i).Inv where
  busy := fun k j => by
    show (if k ∈ (s.thread i).making.map Prod.fst then LazyState.poisoned else s.state k) = _ ↔ _
    by_cases hj : j = i
    · subst hj
      unfold Lazies.unwind
      rw [Lazies.goto_self]
      refine ⟨fun e => ?_, fun e => (nomatch e)⟩
      split at e
      · cases e
      · next hn => exact absurd ((h.busy k j).mp e) hn
    · unfold Lazies.unwind
      rw [Lazies.goto_other _ _ hj]
      show _ ↔ k ∈ (s.thread j).making.map Prod.fst
      split
      · next hk =>
        refine ⟨fun e => (nomatch e), fun e => ?_⟩
        have := (h.busy k i).mpr hk
        rw [(h.busy k j).mpr e] at this
        cases this
        exact absurd rfl hj
      · exact h.busy k j
  distinct := fun j => by
    by_cases hj : j = i
    · subst hj; unfold Lazies.unwind; rw [Lazies.goto_self]; exact List.nodup_nil
    · unfold Lazies.unwind; rw [Lazies.goto_other _ _ hj]; exact h.distinct j
  once := h.once
  called := fun k => by
    show k ∈ s.called ↔
      (if k ∈ (s.thread i).making.map Prod.fst then LazyState.poisoned else s.state k) ≠ _
    split
    · next hk =>
      refine ⟨fun _ e => (nomatch e), fun _ => (h.called k).mpr ?_⟩
      rw [(h.busy k i).mpr hk]
      exact fun e => (nomatch e)
    · exact h.called k
  over := fun j => by
    by_cases hj : j = i
    · subst hj; unfold Lazies.unwind; rw [Lazies.goto_self]; exact fun _ => rfl
    · unfold Lazies.unwind; rw [Lazies.goto_other _ _ hj]; exact h.over j

theorem LazyThread.asks_ending {t : LazyThread} {k : Nat} (h : t.asks = some k) : t.ending = none := by
  unfold LazyThread.asks at h
  split at h
  · next he _ _ => exact he
  · next he _ => exact he
  · cases h

theorem Lazies.Inv.step {s s' : Lazies} {i : Nat} (h : s.Inv) (hs : s.step i = some s') : s'.Inv := by
  cases Lazies.step_cases hs with
  | @calls k hk hf =>
    have hne : ∀ j, k ∉ (s.thread j).making.map Prod.fst := fun j hj => by
      have := (h.busy k j).mpr hj
      rw [hf] at this
      cases this
    exact {
      busy := fun k' j => by
        show (if k' = k then LazyState.busy i else s.state k') = _ ↔ _
        by_cases hj : j = i
        · subst hj
          rw [Lazies.goto_self]
          show _ ↔ k' ∈ k :: (s.thread j).making.map Prod.fst
          split
          · next e => subst e; exact ⟨fun _ => List.mem_cons_self, fun _ => rfl⟩
          · next hn =>
            rw [List.mem_cons]
            exact ⟨fun e => .inr ((h.busy k' j).mp e), fun e => (h.busy k' j).mpr (e.resolve_left hn)⟩
        · rw [Lazies.goto_other _ _ hj]
          show _ ↔ k' ∈ (s.thread j).making.map Prod.fst
          split
          · next e =>
            subst e
            exact ⟨fun e => absurd (LazyState.busy.inj e).symm hj, fun e => absurd e (hne j)⟩
          · exact h.busy k' j
      distinct := fun j => by
        by_cases hj : j = i
        · subst hj; rw [Lazies.goto_self]; exact List.nodup_cons.mpr ⟨hne j, h.distinct j⟩
        · rw [Lazies.goto_other _ _ hj]; exact h.distinct j
      once := List.nodup_cons.mpr ⟨fun hc => (h.called k).mp hc hf, h.once⟩
      called := fun k' => by
        show k' ∈ k :: s.called ↔ (if k' = k then LazyState.busy i else s.state k') ≠ _
        rw [List.mem_cons]
        split
        · next e => exact ⟨fun _ e' => (nomatch e'), fun _ => .inl e⟩
        · next hn => exact ⟨fun e => (h.called k').mp (e.resolve_left hn), fun e => .inr ((h.called k').mpr e)⟩
      over := fun j => by
        by_cases hj : j = i
        · subst hj; rw [Lazies.goto_self]; exact fun he => absurd (LazyThread.asks_ending hk) he
        · rw [Lazies.goto_other _ _ hj]; exact h.over j }
  | @told k v hk hr =>
    refine h.goto (LazyThread.told_keys _ v) (fun he => ?_)
    rw [LazyThread.told_ending] at he
    exact absurd (LazyThread.asks_ending hk) he
  | poisoned hk hp => exact h.unwind i
  | itself hk hb hc => exact h.unwind i
  | @gives k v ms he hm =>
    have hd := h.distinct i
    rw [hm] at hd
    have hd : k ∉ ms.map Prod.fst ∧ (ms.map Prod.fst).Nodup := List.nodup_cons.mp hd
    have hb : s.state k = .busy i := (h.busy k i).mpr (by rw [hm]; exact List.mem_cons_self)
    exact {
      busy := fun k' j => by
        show (if k' = k then LazyState.ready v else s.state k') = _ ↔ _
        by_cases hj : j = i
        · subst hj
          rw [Lazies.goto_self]
          show _ ↔ k' ∈ ms.map Prod.fst
          split
          · next e => subst e; exact ⟨fun e => (nomatch e), fun e => absurd e hd.1⟩
          · next hn =>
            rw [h.busy k' j, hm]
            exact ⟨fun e => (List.mem_cons.mp e).resolve_left hn, fun e => List.mem_cons_of_mem _ e⟩
        · rw [Lazies.goto_other _ _ hj]
          show _ ↔ k' ∈ (s.thread j).making.map Prod.fst
          split
          · next e =>
            subst e
            refine ⟨fun e => (nomatch e), fun e => ?_⟩
            have := (h.busy k' j).mpr e
            rw [hb] at this
            exact absurd (LazyState.busy.inj this).symm hj
          · exact h.busy k' j
      distinct := fun j => by
        by_cases hj : j = i
        · subst hj; rw [Lazies.goto_self]; exact hd.2
        · rw [Lazies.goto_other _ _ hj]; exact h.distinct j
      once := h.once
      called := fun k' => by
        show k' ∈ s.called ↔ (if k' = k then LazyState.ready v else s.state k') ≠ _
        split
        · next e =>
          subst e
          refine ⟨fun _ e' => (nomatch e'), fun _ => (h.called k').mpr ?_⟩
          rw [hb]
          exact fun e => (nomatch e)
        · exact h.called k'
      over := fun j => by
        by_cases hj : j = i
        · subst hj; rw [Lazies.goto_self]; exact fun he' => absurd he he'
        · rw [Lazies.goto_other _ _ hj]; exact h.over j }
  | panics he hm => exact h.unwind i
  | plain he hm ht hr => exact h.goto rfl (fun he' => absurd he he')
  | plainFails he hm ht hr hn => exact h.goto rfl (fun _ => hm)
  | nil he hm ht => exact h.goto rfl (fun _ => hm)

theorem Lazies.Inv.run (is : List Nat) : ∀ {s : Lazies}, s.Inv → (s.run is).Inv := by
  induction is with
  | nil => exact fun h => h
  | cons i is ih =>
    intro s h
    show (((s.step i).getD s).run is).Inv
    cases hs : s.step i with
    | none => exact ih h
    | some s' => exact ih (h.step hs)

theorem Lazies.run_append (is js : List Nat) : ∀ s : Lazies, s.run (is ++ js) = (s.run is).run js := by
  induction is with
  | nil => exact fun _ => rfl
  | cons i is ih => exact fun s => ih _

/-- What is made stays as it is. -/
theorem Lazies.step_ready {s s' : Lazies} {i k : Nat} {v : List Part} (h : s.Inv)
    (hs : s.step i = some s') (hk : s.state k = .ready v) : s'.state k = .ready v := by
  have hn : ∀ j, k ∉ (s.thread j).making.map Prod.fst := fun j hj => by
    have := (h.busy k j).mpr hj
    rw [hk] at this
    cases this
  cases Lazies.step_cases hs with
  | @calls k' _ hf =>
    show (if k = k' then LazyState.busy i else s.state k) = _
    rw [if_neg (fun e => by subst e; rw [hf] at hk; cases hk)]
    exact hk
  | told => exact hk
  | poisoned => exact (if_neg (hn i)).trans hk
  | itself => exact (if_neg (hn i)).trans hk
  | @gives k' v' ms he hm =>
    show (if k = k' then LazyState.ready v' else s.state k) = _
    rw [if_neg (fun e => by subst e; exact hn i (by rw [hm]; exact List.mem_cons_self))]
    exact hk
  | panics => exact (if_neg (hn i)).trans hk
  | plain => exact hk
  | plainFails => exact hk
  | nil => exact hk

/-- What is poisoned stays so. -/
theorem Lazies.step_poisoned {s s' : Lazies} {i k : Nat} (h : s.Inv)
    (hs : s.step i = some s') (hk : s.state k = .poisoned) : s'.state k = .poisoned := by
  have hn : ∀ j, k ∉ (s.thread j).making.map Prod.fst := fun j hj => by
    have := (h.busy k j).mpr hj
    rw [hk] at this
    cases this
  cases Lazies.step_cases hs with
  | @calls k' _ hf =>
    show (if k = k' then LazyState.busy i else s.state k) = _
    rw [if_neg (fun e => by subst e; rw [hf] at hk; cases hk)]
    exact hk
  | told => exact hk
  | poisoned => exact (if_neg (hn i)).trans hk
  | itself => exact (if_neg (hn i)).trans hk
  | @gives k' v' ms he hm =>
    show (if k = k' then LazyState.ready v' else s.state k) = _
    rw [if_neg (fun e => by subst e; exact hn i (by rw [hm]; exact List.mem_cons_self))]
    exact hk
  | panics => exact (if_neg (hn i)).trans hk
  | plain => exact hk
  | plainFails => exact hk
  | nil => exact hk

theorem Lazies.run_ready (is : List Nat) {k : Nat} {v : List Part} : ∀ {s : Lazies}, s.Inv →
    s.state k = .ready v → (s.run is).state k = .ready v := by
  induction is with
  | nil => exact fun _ h => h
  | cons i is ih =>
    intro s h hk
    show (((s.step i).getD s).run is).state k = _
    cases hs : s.step i with
    | none => exact ih h hk
    | some s' => exact ih (h.step hs) (Lazies.step_ready h hs hk)

theorem Lazies.run_poisoned (is : List Nat) {k : Nat} : ∀ {s : Lazies}, s.Inv →
    s.state k = .poisoned → (s.run is).state k = .poisoned := by
  induction is with
  | nil => exact fun _ h => h
  | cons i is ih =>
    intro s h hk
    show (((s.step i).getD s).run is).state k = _
    cases hs : s.step i with
    | none => exact ih h hk
    | some s' => exact ih (h.step hs) (Lazies.step_poisoned h hs hk)

end Oct
