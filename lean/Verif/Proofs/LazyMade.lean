import Verif.Proofs.Lazy
/- What is made of lazy values that are in order, and that all who encode them come to an end: C120. -/
namespace Oct
open Spec

theorem makes_unique {init : Nat → Maker} {m : Maker} {r r' : Option (List Part)}
    (h : Makes init m r) (h' : Makes init m r') : r = r' := by
  induction h generalizing r' with
  | gives => cases h'; rfl
  | panics => cases h'; rfl
  | forces _ _ ih1 ih2 =>
    cases h' with
    | forces h1 h2 => cases ih1 h1; exact ih2 h2
    | forcesNone h1 => cases ih1 h1
  | forcesNone _ ih =>
    cases h' with
    | forces h1 h2 => cases ih h1
    | forcesNone h1 => rfl

theorem encodesMade_unique {init : Nat → Maker} {c : List Part} {o o1 o2 : Output} {e1 e2 : Ending}
    (h1 : EncodesMade init c o e1 o1) (h2 : EncodesMade init c o e2 o2) : e1 = e2 ∧ o1 = o2 := by
  induction h1 generalizing e2 o2 with
  | nil => cases h2; exact ⟨rfl, rfl⟩
  | plain hm _ ih =>
    cases h2 with
    | plain hm' h' => rw [hm] at hm'; cases hm'; exact ih h'
    | plainFails hm' hn => rw [hm] at hm'; cases hm'; exact absurd rfl hn
  | plainFails hm hn =>
    cases h2 with
    | plain hm' h' => rw [hm] at hm'; cases hm'; exact absurd rfl hn
    | plainFails hm' hn' => rw [hm] at hm'; cases hm'; exact ⟨rfl, rfl⟩
  | lazy hk _ _ ih1 ih2 =>
    cases h2 with
    | lazy hk' h1' h2' =>
      cases makes_unique hk hk'
      obtain ⟨_, rfl⟩ := ih1 h1'
      exact ih2 h2'
    | lazyFails hk' h1' hn =>
      cases makes_unique hk hk'
      exact absurd (ih1 h1').1.symm hn
    | lazyNone hk' => cases makes_unique hk hk'
  | lazyFails hk _ hn ih =>
    cases h2 with
    | lazy hk' h1' h2' =>
      cases makes_unique hk hk'
      exact absurd (ih h1').1 hn
    | lazyFails hk' h1' hn' =>
      cases makes_unique hk hk'
      obtain ⟨rfl, rfl⟩ := ih h1'
      exact ⟨rfl, rfl⟩
    | lazyNone hk' => cases makes_unique hk hk'
  | lazyNone hk =>
    cases h2 with
    | lazy hk' _ _ => cases makes_unique hk hk'
    | lazyFails hk' _ _ => cases makes_unique hk hk'
    | lazyNone hk' => exact ⟨rfl, rfl⟩

/-- What an initialiser makes only contains what it may. -/
theorem makes_below {init : Nat → Maker} (hi : InOrder init) {m : Maker} {r : Option (List Part)}
    (h : Makes init m r) : ∀ {n : Nat} {v : List Part}, MakerBelow n m → r = some v → PartsBelow n v := by
  induction h with
  | gives => intro n v hb e; cases e; cases hb with | gives hp => exact hp
  | panics => intro n v hb e; cases e
  | @forces k next v' r h1 h2 ih1 ih2 =>
    intro n v hb e
    cases hb with
    | forces hk hn => exact ih2 (hn v' (ih1 (hi k) rfl)) e
  | forcesNone => intro n v hb e; cases e

/-- Initialisers in order make something, or panic. -/
theorem makes_exists {init : Nat → Maker} (hi : InOrder init) : ∀ (n : Nat) {m : Maker},
    MakerBelow n m → ∃ r, Makes init m r := by
  intro n
  induction n using Nat.strongRecOn with
  | _ n ih =>
    intro m hm
    induction hm with
    | gives => exact ⟨_, .gives⟩
    | panics => exact ⟨_, .panics⟩
    | @forces k next hk hn ihn =>
      obtain ⟨r, hr⟩ := ih k hk (hi k)
      cases r with
      | none => exact ⟨none, .forcesNone hr⟩
      | some v =>
        obtain ⟨r, h⟩ := ihn v (makes_below hi hr (hi k) rfl)
        exact ⟨r, .forces hr h⟩

/-- What contains lazy values in order can be encoded. -/
theorem encodesMade_exists {init : Nat → Maker} (hi : InOrder init) : ∀ (n : Nat) (c : List Part),
    PartsBelow n c → ∀ o, ∃ e o', EncodesMade init c o e o' := by
  intro n
  induction n using Nat.strongRecOn with
  | _ n ih =>
    intro c
    induction c with
    | nil => exact fun _ o => ⟨_, _, .nil⟩
    | cons p c ihc =>
      intro hb o
      have hb' : PartsBelow n c := fun k g h => hb k g (List.mem_cons_of_mem _ h)
      cases p with
      | plain m =>
        by_cases hr : (m o).1 = .ok ()
        · obtain ⟨e, o', h⟩ := ihc hb' (m o).2
          exact ⟨e, o', .plain (Prod.ext hr rfl) h⟩
        · exact ⟨_, _, .plainFails rfl hr⟩
      | lazy k g =>
        have hk : k < n := hb k g List.mem_cons_self
        obtain ⟨r, hr⟩ := makes_exists hi k (hi k)
        cases r with
        | none => exact ⟨_, _, .lazyNone hr⟩
        | some v =>
          obtain ⟨e, o1, h⟩ := ih k hk v (makes_below hi hr (hi k) rfl) o
          by_cases he : e = .encoded (.ok ())
          · subst he
            obtain ⟨e', o', h'⟩ := ihc hb' o1
            exact ⟨e', o', .lazy hr h h'⟩
          · exact ⟨_, _, .lazyFails hr h he⟩

theorem mapErr_encoded_ok {g : EncErr → EncErr} {e : Ending} (h : e ≠ .encoded (.ok ())) :
    Ending.mapErr g e ≠ .encoded (.ok ()) := by
  cases e with
  | notMade => exact fun e => (nomatch e)
  | encoded r =>
    cases r with
    | ok a => exact absurd rfl h
    | err e => exact fun e => (nomatch e)
    | panic p => exact fun e => (nomatch e)
    | ub u => exact fun e => (nomatch e)

theorem mapErr_mapErr (g g' : EncErr → EncErr) (e : Ending) :
    Ending.mapErr (fun x => g (g' x)) e = Ending.mapErr g (Ending.mapErr g' e) := by
  cases e with
  | notMade => rfl
  | encoded r => cases r <;> rfl

/-- Encoding parts in a place where errors are turned, and what comes after. -/
theorem encodesMade_under {init : Nat → Maker} {g : EncErr → EncErr} {c : List Part} (v : List Part) :
    ∀ {o o2 : Output} {e : Ending}, EncodesMade init (v.map (Part.under g) ++ c) o e o2 →
    (∃ o1, EncodesMade init v o (.encoded (.ok ())) o1 ∧ EncodesMade init c o1 e o2) ∨
    ∃ e', EncodesMade init v o e' o2 ∧ e' ≠ .encoded (.ok ()) ∧ e = Ending.mapErr g e' := by
  induction v with
  | nil => exact fun h => .inl ⟨_, .nil, h⟩
  | cons p v ih =>
    intro o o2 e h
    cases p with
    | plain m =>
      have h : EncodesMade init (.plain (m.mapErr g) :: (v.map (Part.under g) ++ c)) o e o2 := h
      cases h with
      | @plain _ _ _ o1 _ _ hm h =>
        have hm' : m o = (.ok (), o1) := by
          have h2 : (m o).2 = o1 := congrArg Prod.snd hm
          have h1 : (m o).1.mapErr g = .ok () := congrArg Prod.fst hm
          refine Prod.ext ?_ h2
          cases hx : (m o).1 with
          | ok a => rfl
          | err e => rw [hx] at h1; cases h1
          | panic e => rw [hx] at h1; cases h1
          | ub e => rw [hx] at h1; cases h1
        rcases ih h with ⟨o1, ha, hb⟩ | ⟨e', ha, hb, hc⟩
        · exact .inl ⟨o1, .plain hm' ha, hb⟩
        · exact .inr ⟨e', .plain hm' ha, hb, hc⟩
      | @plainFails _ _ _ o1 r hm hn =>
        have h2 : (m o).2 = o2 := congrArg Prod.snd hm
        have h1 : (m o).1.mapErr g = r := congrArg Prod.fst hm
        refine .inr ⟨.encoded (m o).1, .plainFails (Prod.ext rfl h2) ?_, ?_, congrArg Ending.encoded h1.symm⟩
        · intro e; rw [e] at h1; exact hn h1.symm
        · intro e; rw [Ending.encoded.inj e] at h1; exact hn h1.symm
    | lazy k g' =>
      have h : EncodesMade init (.lazy k (fun x => g (g' x)) :: (v.map (Part.under g) ++ c)) o e o2 := h
      cases h with
      | lazy hk h1 h2 =>
        rcases ih h2 with ⟨o1, ha, hb⟩ | ⟨e', ha, hb, hc⟩
        · exact .inl ⟨o1, .lazy hk h1 ha, hb⟩
        · exact .inr ⟨e', .lazy hk h1 ha, hb, hc⟩
      | @lazyFails _ _ _ _ _ _ e0 hk h1 hn =>
        exact .inr ⟨Ending.mapErr g' e0, .lazyFails hk h1 hn, mapErr_encoded_ok hn, mapErr_mapErr g g' e0⟩
      | lazyNone hk => exact .inr ⟨.notMade, .lazyNone hk, fun e => (nomatch e), rfl⟩

/-- Whom the value `k` is made for: the initialiser around, or else the encoder. -/
def Waits (k : Nat) (todo : List Part) : List (Nat × Maker) → Prop
  | [] => ∃ g rest, todo = .lazy k g :: rest
  | (_, m) :: _ => ∃ next, m = .forces k next

/-- What holds of the initialisers that a thread is running. -/
def Chain (init : Nat → Maker) (todo : List Part) : List (Nat × Maker) → Prop
  | [] => True
  | (k, m) :: ms => MakerBelow k m ∧ (∀ r, Makes init m r → Makes init (init k) r) ∧ Waits k todo ms ∧
    Chain init todo ms

/-- Initialisers around others are of values that come later. -/
theorem Chain.least {init : Nat → Maker} {todo : List Part} {k : Nat} {m : Maker} :
    ∀ {ms : List (Nat × Maker)}, Chain init todo ((k, m) :: ms) → ∀ k', k' ∈ ms.map Prod.fst → k < k' := by
  intro ms
  induction ms generalizing k m with
  | nil => exact fun _ _ h => (nomatch h)
  | cons km ms ih =>
    obtain ⟨k1, m1⟩ := km
    intro h k' hk
    obtain ⟨_, _, ⟨next, hw⟩, hc⟩ := h
    have h1 : k < k1 := by
      have := hc.1
      rw [hw] at this
      cases this with
      | forces hk _ => exact hk
    rcases List.mem_cons.mp hk with e | hk
    · exact e ▸ h1
    · exact Nat.lt_trans h1 (ih hc k' hk)

/-- If the innermost initialiser panics then so do all others and the encoder. -/
theorem Chain.panics {init : Nat → Maker} {todo : List Part} {k : Nat} {m : Maker}
    (hm : Makes init m none) : ∀ {ms : List (Nat × Maker)}, Chain init todo ((k, m) :: ms) →
    (∀ k', k' ∈ k :: ms.map Prod.fst → Makes init (init k') none) ∧
    ∃ k' g rest, todo = .lazy k' g :: rest ∧ Makes init (init k') none := by
  intro ms
  induction ms generalizing k m with
  | nil =>
    intro h
    obtain ⟨_, hr, ⟨g, rest, hw⟩, _⟩ := h
    refine ⟨fun k' hk' => ?_, k, g, rest, hw, hr none hm⟩
    rcases List.mem_cons.mp hk' with e | e
    · exact e ▸ hr none hm
    · cases e
  | cons km ms ih =>
    obtain ⟨k1, m1⟩ := km
    intro h
    obtain ⟨_, hr, ⟨next, hw⟩, hc⟩ := h
    have h1 : Makes init m1 none := by rw [hw]; exact .forcesNone (hr none hm)
    obtain ⟨ha, hb⟩ := ih h1 hc
    refine ⟨fun k' hk' => ?_, hb⟩
    rcases List.mem_cons.mp hk' with e | e
    · exact e ▸ hr none hm
    · exact ha k' e

/-- What is known of how a thread will end. -/
def LazyThread.Known (init : Nat → Maker) (todo0 : List Part) (o0 : Output) (t : LazyThread) : Prop :=
  match t.ending with
  | none => ∀ e o', EncodesMade init t.todo t.output e o' → EncodesMade init todo0 o0 e o'
  | some e => EncodesMade init todo0 o0 e t.output

/-- What holds at any time if the values are in order. -/
structure Lazies.Ordered (init : Nat → Maker) (todo0 : Nat → List Part) (o0 : Nat → Output)
    (s : Lazies) : Prop where
  inv : s.Inv
  same : s.init = init
  order : InOrder init
  chain : ∀ i, Chain init (s.thread i).todo (s.thread i).making
  ready : ∀ k v, s.state k = .ready v → Makes init (init k) (some v)
  poisoned : ∀ k, s.state k = .poisoned → Makes init (init k) none
  known : ∀ i, (s.thread i).Known init (todo0 i) (o0 i)

theorem Lazies.start_ordered (cell : Nat → Bool) {init : Nat → Maker} (hi : InOrder init)
    (todo : Nat → List Part) (output : Nat → Output) :
    (Lazies.start cell init todo output).Ordered init todo output where
  inv := Lazies.start_inv cell init todo output
  same := rfl
  order := hi
  chain := fun _ => trivial
  ready := fun _ _ h => (nomatch h)
  poisoned := fun _ h => (nomatch h)
  known := fun _ _ _ h => h

variable {init : Nat → Maker} {todo0 : Nat → List Part} {o0 : Nat → Output}

/-- What the asking thread looks like. -/
theorem LazyThread.asks_cases {t : LazyThread} {k : Nat} (h : t.asks = some k) :
    (t.making = [] ∧ ∃ g rest, t.todo = .lazy k g :: rest) ∨
    ∃ k' next ms, t.making = (k', .forces k next) :: ms := by
  unfold LazyThread.asks at h
  split at h
  · next g rest he hm ht => cases h; exact .inl ⟨hm, g, rest, ht⟩
  · next hm => cases h; exact .inr ⟨_, _, _, hm⟩
  · cases h

theorem LazyThread.told_lazy {t : LazyThread} {k : Nat} {g : EncErr → EncErr} {rest : List Part}
    (hm : t.making = []) (ht : t.todo = .lazy k g :: rest) (v : List Part) :
    t.told v = { t with todo := v.map (Part.under g) ++ rest } := by
  obtain ⟨ms, todo, o, e⟩ := t
  cases hm
  cases ht
  rfl

/-- In order, no thread asks for what it is making. -/
theorem Lazies.Ordered.not_itself {s : Lazies} (h : s.Ordered init todo0 o0) {i k : Nat}
    (hk : (s.thread i).asks = some k) : s.state k ≠ .busy i := by
  intro hb
  have hm := (h.inv.busy k i).mp hb
  rcases LazyThread.asks_cases hk with ⟨e, _⟩ | ⟨k', next, ms, e⟩
  · rw [e] at hm; cases hm
  · have hc := h.chain i
    rw [e] at hc hm
    have hlt : k < k' := by
      cases hc.1 with
      | forces hk _ => exact hk
    rcases List.mem_cons.mp hm with e' | e'
    · exact absurd (show k = k' from e') (Nat.ne_of_lt hlt)
    · exact absurd (Chain.least hc k e') (Nat.not_lt_of_gt hlt)

theorem Lazies.Ordered.unwind {s : Lazies} (h : s.Ordered init todo0 o0) {i : Nat}
    (he : (s.thread i).ending = none)
    (hp : (∀ k, k ∈ (s.thread i).making.map Prod.fst → Makes init (init k) none) ∧
      ∃ k g rest, (s.thread i).todo = .lazy k g :: rest ∧ Makes init (init k) none) :
    (s.unwind i).Ordered init todo0 o0 where
  inv := h.inv.unwind i
  same := h.same
  order := h.order
  chain := fun j => by
    by_cases hj : j = i
    · subst hj; unfold Lazies.unwind; rw [Lazies.goto_self]; exact trivial
    · unfold Lazies.unwind; rw [Lazies.goto_other _ _ hj]; exact h.chain j
  ready := fun k v hk => by
    replace hk : (if k ∈ (s.thread i).making.map Prod.fst then LazyState.poisoned else s.state k) = _ := hk
    split at hk
    · cases hk
    · exact h.ready k v hk
  poisoned := fun k hk => by
    replace hk : (if k ∈ (s.thread i).making.map Prod.fst then LazyState.poisoned else s.state k) = _ := hk
    split at hk
    · next hm => exact hp.1 k hm
    · exact h.poisoned k hk
  known := fun j => by
    by_cases hj : j = i
    · subst hj
      unfold Lazies.unwind
      rw [Lazies.goto_self]
      obtain ⟨k, g, rest, ht, hm⟩ := hp.2
      have hkn := h.known j
      unfold LazyThread.Known at hkn
      rw [he] at hkn
      exact hkn _ _ (by rw [ht]; exact .lazyNone hm)
    · unfold Lazies.unwind; rw [Lazies.goto_other _ _ hj]; exact h.known j

theorem Lazies.Ordered.goto {s : Lazies} (h : s.Ordered init todo0 o0) {i : Nat} {t : LazyThread}
    (hi : (s.goto i t).Inv) (hc : Chain init t.todo t.making)
    (hk : t.Known init (todo0 i) (o0 i)) : (s.goto i t).Ordered init todo0 o0 where
  inv := hi
  same := h.same
  order := h.order
  chain := fun j => by
    by_cases hj : j = i
    · subst hj; rw [Lazies.goto_self]; exact hc
    · rw [Lazies.goto_other _ _ hj]; exact h.chain j
  ready := h.ready
  poisoned := h.poisoned
  known := fun j => by
    by_cases hj : j = i
    · subst hj; rw [Lazies.goto_self]; exact hk
    · rw [Lazies.goto_other _ _ hj]; exact h.known j

theorem LazyThread.Known.open {t : LazyThread} {c : List Part} {o : Output}
    (h : t.Known init c o) (he : t.ending = none) :
    ∀ e o', EncodesMade init t.todo t.output e o' → EncodesMade init c o e o' := by
  unfold LazyThread.Known at h
  rw [he] at h
  exact h

theorem LazyThread.Known.mk' {t : LazyThread} {c : List Part} {o : Output} (he : t.ending = none)
    (h : ∀ e o', EncodesMade init t.todo t.output e o' → EncodesMade init c o e o') :
    t.Known init c o := by
  unfold LazyThread.Known
  rw [he]
  exact h

theorem Lazies.Ordered.step {s s' : Lazies} {i : Nat} (h : s.Ordered init todo0 o0)
    (hs : s.step i = some s') : s'.Ordered init todo0 o0 := by
  have hinv := h.inv.step hs
  cases Lazies.step_cases hs with
  | @calls k hk hf =>
    have hw : Waits k (s.thread i).todo (s.thread i).making := by
      rcases LazyThread.asks_cases hk with ⟨hm, g, rest, ht⟩ | ⟨k', next, ms, hm⟩
      · rw [hm]; exact ⟨g, rest, ht⟩
      · rw [hm]; exact ⟨next, rfl⟩
    have hi := h.same
    exact {
      inv := hinv
      same := h.same
      order := h.order
      chain := fun j => by
        by_cases hj : j = i
        · subst hj
          rw [Lazies.goto_self]
          refine ⟨?_, fun r hr => ?_, hw, h.chain j⟩
          · show MakerBelow k (s.init k)
            rw [hi]; exact h.order k
          · have hr : Makes init (s.init k) r := hr
            rw [hi] at hr
            exact hr
        · rw [Lazies.goto_other _ _ hj]; exact h.chain j
      ready := fun k' v hk' => by
        replace hk' : (if k' = k then LazyState.busy i else s.state k') = _ := hk'
        split at hk'
        · cases hk'
        · exact h.ready k' v hk'
      poisoned := fun k' hk' => by
        replace hk' : (if k' = k then LazyState.busy i else s.state k') = _ := hk'
        split at hk'
        · cases hk'
        · exact h.poisoned k' hk'
      known := fun j => by
        by_cases hj : j = i
        · subst hj; rw [Lazies.goto_self]; exact h.known j
        · rw [Lazies.goto_other _ _ hj]; exact h.known j }
  | @told k v hk hr =>
    have hv := h.ready k v hr
    have hvb := makes_below h.order hv (h.order k) rfl
    have he := LazyThread.asks_ending hk
    rcases LazyThread.asks_cases hk with ⟨hm, g, rest, ht⟩ | ⟨k', next, ms, hm⟩
    · have e : (s.thread i).told v = { s.thread i with todo := v.map (Part.under g) ++ rest } :=
        LazyThread.told_lazy hm ht v
      rw [e] at hinv ⊢
      refine h.goto hinv (by show Chain _ _ (s.thread i).making; rw [hm]; trivial)
        (LazyThread.Known.mk' he fun e o' hx => (h.known i).open he e o' ?_)
      rw [ht]
      rcases encodesMade_under v hx with ⟨o1, ha, hb⟩ | ⟨e', ha, hb, rfl⟩
      · exact .lazy hv ha hb
      · exact .lazyFails hv ha hb
    · have e : (s.thread i).told v = { s.thread i with making := (k', next v) :: ms } := by
        unfold LazyThread.told
        rw [hm]
      rw [e] at hinv ⊢
      have hc := h.chain i
      rw [hm] at hc
      obtain ⟨hb, hr', hw, hc⟩ := hc
      refine h.goto hinv ⟨?_, fun r hr'' => hr' r (.forces hv hr''), hw, hc⟩
        (LazyThread.Known.mk' he ((h.known i).open he))
      cases hb with
      | forces _ hn => exact hn v hvb
  | @poisoned k hk hp =>
    have hn := h.poisoned k hp
    refine h.unwind (LazyThread.asks_ending hk) ?_
    rcases LazyThread.asks_cases hk with ⟨hm, g, rest, ht⟩ | ⟨k', next, ms, hm⟩
    · rw [hm]; exact ⟨fun _ h => (nomatch h), k, g, rest, ht, hn⟩
    · have hc := h.chain i
      rw [hm] at hc ⊢
      exact Chain.panics (.forcesNone hn) hc
  | itself hk hb hc => exact absurd hb (h.not_itself hk)
  | @gives k v ms he hm =>
    have hc := h.chain i
    rw [hm] at hc
    obtain ⟨_, hr, hw, hc⟩ := hc
    exact {
      inv := hinv
      same := h.same
      order := h.order
      chain := fun j => by
        by_cases hj : j = i
        · subst hj; rw [Lazies.goto_self]; exact hc
        · rw [Lazies.goto_other _ _ hj]; exact h.chain j
      ready := fun k' v' hk' => by
        replace hk' : (if k' = k then LazyState.ready v else s.state k') = _ := hk'
        split at hk'
        · next e => cases hk'; rw [e]; exact hr _ .gives
        · exact h.ready k' v' hk'
      poisoned := fun k' hk' => by
        replace hk' : (if k' = k then LazyState.ready v else s.state k') = _ := hk'
        split at hk'
        · cases hk'
        · exact h.poisoned k' hk'
      known := fun j => by
        by_cases hj : j = i
        · subst hj; rw [Lazies.goto_self]; exact h.known j
        · rw [Lazies.goto_other _ _ hj]; exact h.known j }
  | @panics k ms he hm =>
    refine h.unwind he ?_
    have hc := h.chain i
    rw [hm] at hc ⊢
    exact Chain.panics .panics hc
  | plain he hm ht hr =>
    refine h.goto hinv (by show Chain _ _ (s.thread i).making; rw [hm]; trivial)
      (LazyThread.Known.mk' he fun e o' hx => (h.known i).open he e o' ?_)
    rw [ht]
    exact .plain hr hx
  | plainFails he hm ht hr hn =>
    refine h.goto hinv (by show Chain _ _ (s.thread i).making; rw [hm]; trivial) ?_
    exact (h.known i).open he _ _ (by rw [ht]; exact .plainFails hr hn)
  | nil he hm ht =>
    refine h.goto hinv (by show Chain _ _ (s.thread i).making; rw [hm]; trivial) ?_
    exact (h.known i).open he _ _ (by rw [ht]; exact .nil)

theorem Lazies.Ordered.run (is : List Nat) : ∀ {s : Lazies}, s.Ordered init todo0 o0 →
    (s.run is).Ordered init todo0 o0 := by
  induction is with
  | nil => exact fun h => h
  | cons i is ih =>
    intro s h
    show (((s.step i).getD s).run is).Ordered init todo0 o0
    cases hs : s.step i with
    | none => exact ih h
    | some s' => exact ih (h.step hs)

/-- While something is being made, somebody can make a step. -/
theorem Lazies.Ordered.busy_steps {s : Lazies} (h : s.Ordered init todo0 o0) : ∀ k i,
    s.state k = .busy i → ∃ j s', s.step j = some s' ∧ (s.thread j).making ≠ [] := by
  intro k
  induction k using Nat.strongRecOn with
  | _ k ih =>
    intro i hb
    have hm := (h.inv.busy k i).mp hb
    have he : (s.thread i).ending = none := by
      cases he : (s.thread i).ending with
      | none => rfl
      | some e => rw [h.inv.over i (by rw [he]; exact fun e => (nomatch e))] at hm; cases hm
    by_cases hx : ∃ k' j, (s.thread i).asks = some k' ∧ s.state k' = .busy j
    · obtain ⟨k', j, hk', hj⟩ := hx
      refine ih k' ?_ j hj
      rcases LazyThread.asks_cases hk' with ⟨e, _⟩ | ⟨k1, next, ms, e⟩
      · rw [e] at hm; cases hm
      · have hc := h.chain i
        rw [e] at hc hm
        have hlt : k' < k1 := by
          cases hc.1 with
          | forces hk _ => exact hk
        rcases List.mem_cons.mp hm with e' | e'
        · exact (show k = k1 from e') ▸ hlt
        · exact Nat.lt_trans hlt (Chain.least hc k e')
    · obtain ⟨s', hs⟩ := Lazies.step_some he (fun k' j h1 h2 => hx ⟨k', j, h1, h2⟩)
      exact ⟨i, s', hs, fun e => by rw [e] at hm; cases hm⟩

end Oct
