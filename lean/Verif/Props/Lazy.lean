import Verif.Proofs.LazyEnds
/-
C120: values that are made when they are first encoded.
-/
namespace Oct.Props
open Oct Spec
set_option linter.unusedVariables false

/-- C120. Whatever initialisers do, however many threads encode lazy values, and however they are
scheduled: an initialiser is called at most once, and has been called if and only if its value is not
as it was in the beginning. -/
theorem C120_once (cell : Nat → Bool) (init : Nat → Maker) (todo : Nat → List Part)
    (output : Nat → Output) (is : List Nat) :
    ((Lazies.start cell init todo output).run is).called.Nodup ∧
    ∀ k, k ∈ ((Lazies.start cell init todo output).run is).called ↔
      ((Lazies.start cell init todo output).run is).state k ≠ .fresh :=
  have h := (Lazies.start_inv cell init todo output).run is
  ⟨h.once, h.called⟩

/-- A part that encodes the octet `b`. -/
def octetPart (b : BitVec 8) : Part := .plain ((Ty.num (.int .u8)).encode b)

/-- Two threads that encode the same value. The first one makes it, the second one waits. -/
example : ((Lazies.start (fun _ => false) (fun _ => .gives [octetPart 7#8]) (fun _ => [.lazy 0 id])
    (fun _ => Output.new [0])).run [0, 1, 1, 0, 1, 0, 1, 1]).called = [0] := rfl

/-- C120. What has been made stays as it is, and what is poisoned stays so. -/
theorem C120_kept (cell : Nat → Bool) (init : Nat → Maker) (todo : Nat → List Part)
    (output : Nat → Output) (is js : List Nat) (k : Nat) :
    (∀ v, ((Lazies.start cell init todo output).run is).state k = .ready v →
      ((Lazies.start cell init todo output).run (is ++ js)).state k = .ready v) ∧
    (((Lazies.start cell init todo output).run is).state k = .poisoned →
      ((Lazies.start cell init todo output).run (is ++ js)).state k = .poisoned) := by
  have h := (Lazies.start_inv cell init todo output).run is
  rw [Lazies.run_append]
  exact ⟨fun v hv => Lazies.run_ready js h hv, fun hp => Lazies.run_poisoned js h hp⟩

example : ((Lazies.start (fun _ => false) (fun _ => .gives [octetPart 7#8]) (fun _ => [.lazy 0 id])
    (fun _ => Output.new [0])).run [0, 0]).state 0 = .ready [octetPart 7#8] := rfl

example : ((Lazies.start (fun _ => false) (fun _ => .panics) (fun _ => [.lazy 0 id])
    (fun _ => Output.new [0])).run [0, 0]).state 0 = .poisoned := rfl

/-- C120, as far as it holds. If values can be numbered such that each one only needs those before it
then what is in a value, as soon as anything is, is what its initialiser makes when nobody else is
there. Missing: initialisers that need the value that they make, directly or not, see
`C120_false_cell` and the others. -/
theorem C120_value_partial (cell : Nat → Bool) (init : Nat → Maker) (hi : InOrder init)
    (todo : Nat → List Part) (output : Nat → Output) (is : List Nat) (k : Nat) :
    (∀ v, ((Lazies.start cell init todo output).run is).state k = .ready v →
      Makes init (init k) (some v)) ∧
    (((Lazies.start cell init todo output).run is).state k = .poisoned → Makes init (init k) none) :=
  have h := (Lazies.start_ordered cell hi todo output).run is
  ⟨h.ready k, h.poisoned k⟩

/-- The value `0` is an octet; all others are what the one before is, and another octet. -/
def growing : Nat → Maker
  | 0 => .gives [octetPart 0#8]
  | k + 1 => .forces k fun v => .gives (v ++ [octetPart 1#8])

theorem growing_inOrder : InOrder growing := by
  intro k
  cases k with
  | zero => exact .gives fun k g h => by simp [octetPart] at h
  | succ k =>
    refine .forces (Nat.lt_succ_self k) fun v hv => .gives fun k' g h => ?_
    rcases List.mem_append.mp h with h | h
    · exact Nat.lt_succ_of_lt (hv k' g h)
    · simp [octetPart] at h

/-- C120, as far as it holds. A thread that has ended has encoded what the initialisers make, as if it
had been alone. -/
theorem C120_encoded_partial (cell : Nat → Bool) (init : Nat → Maker) (hi : InOrder init)
    (todo : Nat → List Part) (output : Nat → Output) (is : List Nat) (i : Nat) (e : Ending)
    (he : (((Lazies.start cell init todo output).run is).thread i).ending = some e) :
    EncodesMade init (todo i) (output i) e
      (((Lazies.start cell init todo output).run is).thread i).output := by
  have h := ((Lazies.start_ordered cell hi todo output).run is).known i
  unfold LazyThread.Known at h
  rw [he] at h
  exact h

/-- Two threads encode the value `1`, which needs the value `0`. -/
example : (((Lazies.start (fun _ => false) growing (fun _ => [.lazy 1 id])
    (fun _ => Output.new [9, 9])).run [0, 1, 0, 0, 0, 0, 1, 0, 0, 1, 0, 0, 1, 1, 0]).thread 1).output =
    ⟨[0, 1], 2⟩ := rfl

/-- C120. What is to be encoded is well-defined: there is an outcome, and only one. -/
theorem C120_defined (init : Nat → Maker) (hi : InOrder init) (c : List Part) (o : Output) :
    ∃ e o', EncodesMade init c o e o' ∧
      ∀ e1 o1, EncodesMade init c o e1 o1 → e1 = e ∧ o1 = o' := by
  obtain ⟨n, hn⟩ := partsBelow_bound c
  obtain ⟨e, o', h⟩ := encodesMade_exists hi n c hn o
  exact ⟨e, o', h, fun e1 o1 h1 => encodesMade_unique h1 h⟩

example : InOrder growing := growing_inOrder

/-- C120, as far as it holds. There is never a deadlock among threads that encode values in order. -/
theorem C120_no_deadlock_partial (cell : Nat → Bool) (init : Nat → Maker) (hi : InOrder init)
    (todo : Nat → List Part) (output : Nat → Output) (n : Nat) (is : List Nat)
    (his : ∀ i ∈ is, i < n) : ¬Stuck n ((Lazies.start cell init todo output).run is) := by
  obtain ⟨b, hw⟩ := Lazies.start_within cell init todo output n
  have h := Lazies.start_ordered cell hi todo output
  exact (h.run is).not_stuck (hw.run is h his)

example : ∀ i ∈ [0, 1, 1, 0], i < 2 := by decide

/-- C120, as far as it holds. Any number of threads make a bounded number of steps altogether. -/
theorem C120_ends_partial (cell : Nat → Bool) (init : Nat → Maker) (hi : InOrder init)
    (todo : Nat → List Part) (output : Nat → Output) (n : Nat) :
    ∃ b, ∀ is : List Nat, (∀ i ∈ is, i < n) → (Lazies.start cell init todo output).made is ≤ b := by
  obtain ⟨b, hw⟩ := Lazies.start_within cell init todo output n
  have h := Lazies.start_ordered cell hi todo output
  exact ⟨_, fun is his => Lazies.made_le is h hw his⟩

/-- Alone, it takes seven steps to encode the value `1`. -/
example : (Lazies.start (fun _ => false) growing (fun _ => [.lazy 1 id]) (fun _ => Output.new [9, 9])).made
    [0, 0, 0, 0, 0, 0, 0, 0, 0, 0, 0, 0] = 9 := rfl

/-- C120, as far as it holds. If each thread gets its turn again and again then all of them end. -/
theorem C120_fair_partial (cell : Nat → Bool) (init : Nat → Maker) (hi : InOrder init)
    (todo : Nat → List Part) (output : Nat → Output) (n : Nat) (f : Nat → Nat) (hf : ∀ t, f t < n)
    (hfair : ∀ i, i < n → ∀ t, ∃ t', t ≤ t' ∧ f t' = i) :
    ∃ t, ∀ i, i < n → ∃ e,
      (((Lazies.start cell init todo output).run ((List.range t).map f)).thread i).ending = some e := by
  obtain ⟨b, hw⟩ := Lazies.start_within cell init todo output n
  have h := Lazies.start_ordered cell hi todo output
  obtain ⟨t, ht⟩ := Lazies.fair_ends h hw hf hfair
  refine ⟨t, fun i hi => ?_⟩
  cases he : (((Lazies.start cell init todo output).run ((List.range t).map f)).thread i).ending with
  | none => exact absurd he (ht i hi)
  | some e => exact ⟨e, rfl⟩

/-- Two threads in turns. -/
example : (∀ t, (fun t => t % 2) t < 2) ∧ ∀ i, i < 2 → ∀ t, ∃ t', t ≤ t' ∧ (fun t => t % 2) t' = i :=
  ⟨fun t => Nat.mod_lt t (by decide), fun i hi t => ⟨2 * t + i, by omega, by show (2 * t + i) % 2 = i; omega⟩⟩

/-- C120. The part of a lazy value whose contents amount to the encoder of a value amounts to the
encoder of a `LazyCell` or `LazyLock` of it. -/
theorem C120_lazy (init : Nat → Maker) (w : Wrap) (hw : w = .lazyCell ∨ w = .lazyLock) (t : Ty)
    (x : t.Val) (k : Nat) (v : List Part) (g : EncErr → EncErr) (hv : Makes init (init k) (some v))
    (h : SpellsMade init v (t.encode x)) :
    SpellsMade init [.lazy k g] (((Ty.wrap w t).encode x).mapErr g) := by
  intro o e o' he
  show e = .encoded ((t.encode x o).1.mapErr g) ∧ o' = (t.encode x o).2
  cases he with
  | lazy hv' h1 h2 =>
    cases makes_unique hv hv'
    cases h2
    obtain ⟨e1, e2⟩ := h _ _ _ h1
    rw [← Ending.encoded.inj e1]
    exact ⟨rfl, e2⟩
  | lazyFails hv' h1 hn =>
    cases makes_unique hv hv'
    obtain ⟨rfl, e2⟩ := h _ _ _ h1
    exact ⟨rfl, e2⟩
  | lazyNone hv' => cases makes_unique hv hv'

/-- C120. What has no lazy values amounts to itself. -/
theorem C120_plain (init : Nat → Maker) (m : Enc Unit) : SpellsMade init [.plain m] m := by
  intro o e o' he
  cases he with
  | plain h1 h2 => cases h2; rw [h1]; exact ⟨rfl, rfl⟩
  | plainFails h1 hn => rw [h1]; exact ⟨rfl, rfl⟩

/-- C120. Parts that come one after the other amount to encoders that do. -/
theorem C120_then (init : Nat → Maker) (c c' : List Part) (m m' : Enc Unit)
    (h : SpellsMade init c m) (h' : SpellsMade init c' m') :
    SpellsMade init (c ++ c') (do m; m') := by
  have key : ∀ c o e o2, EncodesMade init (c ++ c') o e o2 →
      (∃ o1, EncodesMade init c o (.encoded (.ok ())) o1 ∧ EncodesMade init c' o1 e o2) ∨
        (EncodesMade init c o e o2 ∧ e ≠ .encoded (.ok ())) := by
    intro c
    induction c with
    | nil => exact fun o r o2 h => .inl ⟨o, .nil, h⟩
    | cons p c ih =>
      intro o r o2 hp
      cases hp with
      | plain h1 h2 =>
        rcases ih _ _ _ h2 with ⟨o1, i1, i2⟩ | ⟨i1, i2⟩
        · exact .inl ⟨o1, .plain h1 i1, i2⟩
        · exact .inr ⟨.plain h1 i1, i2⟩
      | plainFails h1 h2 => exact .inr ⟨.plainFails h1 h2, fun e => h2 (Ending.encoded.inj e)⟩
      | lazy hv h1 h2 =>
        rcases ih _ _ _ h2 with ⟨o1, i1, i2⟩ | ⟨i1, i2⟩
        · exact .inl ⟨o1, .lazy hv h1 i1, i2⟩
        · exact .inr ⟨.lazy hv h1 i1, i2⟩
      | lazyFails hv h1 h2 => exact .inr ⟨.lazyFails hv h1 h2, mapErr_encoded_ok h2⟩
      | lazyNone hv => exact .inr ⟨.lazyNone hv, fun e => (nomatch e)⟩
  intro o e o' hp
  show e = .encoded (Enc.bind m (fun _ => m') o).1 ∧ o' = (Enc.bind m (fun _ => m') o).2
  unfold Enc.bind
  rcases key _ _ _ _ hp with ⟨o1, i1, i2⟩ | ⟨i1, i2⟩
  · obtain ⟨e1, e2⟩ := h _ _ _ i1
    have e : m o = (.ok (), o1) := Prod.ext (Ending.encoded.inj e1).symm e2.symm
    rw [e]
    exact h' _ _ _ i2
  · obtain ⟨rfl, rfl⟩ := h _ _ _ i1
    have hn : (m o).1 ≠ .ok () := fun e => i2 (congrArg Ending.encoded e)
    generalize m o = x at hn ⊢
    obtain ⟨r, o1⟩ := x
    cases r with
    | ok u => exact absurd rfl hn
    | err e => exact ⟨rfl, rfl⟩
    | panic p => exact ⟨rfl, rfl⟩
    | ub u => exact ⟨rfl, rfl⟩

/-- A `LazyLock` of an octet amounts to that. -/
example : SpellsMade growing [.lazy 0 id]
    (((Ty.wrap .lazyLock (.num (.int .u8))).encode (0#8 : BitVec 8)).mapErr id) :=
  C120_lazy growing .lazyLock (.inr rfl) (.num (.int .u8)) (0#8 : BitVec 8) 0 [octetPart 0#8] id .gives
    (C120_plain growing _)

/-- C120 is false of a `LazyLock` whose initialiser needs its own value, and of several such that need
each other's. In general: threads that each force a value that one of them is making wait forever.
(Only a `LazyCell` that is forced by its own initialiser panics.) -/
theorem C120_false_ring (cell : Nat → Bool) (init : Nat → Maker) (todo : Nat → List Part)
    (output : Nat → Output) (is js : List Nat) (P : Nat → Prop)
    (hP : ∀ i, P i → ∃ k j, (((Lazies.start cell init todo output).run is).thread i).asks = some k ∧
      ((Lazies.start cell init todo output).run is).state k = .busy j ∧ P j ∧ (cell k = false ∨ j ≠ i))
    (i : Nat) (hi : P i) :
    ((Lazies.start cell init todo output).run (is ++ js)).thread i =
      ((Lazies.start cell init todo output).run is).thread i := by
  have hinv := (Lazies.start_inv cell init todo output).run is
  have hcell : ∀ is (s : Lazies), (s.run is).cell = s.cell := by
    intro is
    induction is with
    | nil => exact fun _ => rfl
    | cons i is ih =>
      intro s
      refine (ih _).trans ?_
      cases hs : s.step i with
      | none => rfl
      | some s' =>
        show s'.cell = s.cell
        cases Lazies.step_cases hs <;> rfl
  have hc : ((Lazies.start cell init todo output).run is).cell = cell := hcell is _
  rw [Lazies.run_append]
  generalize (Lazies.start cell init todo output).run is = s at hinv hP hc ⊢
  induction js generalizing s with
  | nil => rfl
  | cons j js ih =>
    show (((s.step j).getD s).run js).thread i = _
    cases hs : s.step j with
    | none => exact ih s hinv hP hc
    | some s' =>
      have hinv' := hinv.step hs
      have hj : ¬P j := by
        intro hj
        obtain ⟨k, j', ha, hb, _, hn⟩ := hP j hj
        unfold Lazies.step at hs
        rw [ha] at hs
        simp only at hs
        rw [hb] at hs
        simp only at hs
        rw [if_neg (fun ⟨e1, e2⟩ => by
          rcases hn with hn | hn
          · rw [hc, hn] at e2; cases e2
          · exact hn e1)] at hs
        cases hs
      have hth : ∀ i, P i → s'.thread i = s.thread i := by
        intro i hi
        have hne : i ≠ j := fun e => hj (e ▸ hi)
        cases Lazies.step_cases hs with
        | calls => exact Lazies.goto_other _ _ hne
        | told => exact Lazies.goto_other _ _ hne
        | poisoned => exact Lazies.goto_other _ _ hne
        | itself => exact Lazies.goto_other _ _ hne
        | gives => exact Lazies.goto_other _ _ hne
        | panics => exact Lazies.goto_other _ _ hne
        | plain => exact Lazies.goto_other _ _ hne
        | plainFails => exact Lazies.goto_other _ _ hne
        | nil => exact Lazies.goto_other _ _ hne
      have hc' : s'.cell = cell := by
        rw [← hc]
        cases Lazies.step_cases hs <;> rfl
      refine (ih s' hinv' (fun i hi => ?_) hc').trans (hth i hi)
      obtain ⟨k, j', ha, hb, hj', hn⟩ := hP i hi
      refine ⟨k, j', by rw [hth i hi]; exact ha, (hinv'.busy k j').mpr ?_, hj', hn⟩
      rw [hth j' hj']
      exact (hinv.busy k j').mp hb

/-- C120 is false of a `LazyLock` whose initialiser forces it: whoever encodes it never comes to an end,
whatever anybody does. -/
theorem C120_false_self (next : List Part → Maker) (todo : Nat → List Part) (g : EncErr → EncErr)
    (rest : List Part) (h0 : todo 0 = .lazy 0 g :: rest) (output : Nat → Output) (js : List Nat) :
    (((Lazies.start (fun _ => false) (fun _ => .forces 0 next) todo output).run ([0] ++ js)).thread 0).ending =
      none := by
  have h1 : ∀ t : Nat → List Part, t 0 = .lazy 0 g :: rest →
      (Lazies.start (fun _ => false) (fun _ => .forces 0 next) t output).step 0 =
        some ({ (Lazies.start (fun _ => false) (fun _ => .forces 0 next) t output).mark 0 (.busy 0) with
          called := [0] }.goto 0 ⟨[(0, .forces 0 next)], t 0, output 0, none⟩) := by
    intro t ht
    unfold Lazies.step
    have : ((Lazies.start (fun _ => false) (fun _ => .forces 0 next) t output).thread 0).asks = some 0 := by
      unfold LazyThread.asks
      rw [show ((Lazies.start (fun _ => false) (fun _ => .forces 0 next) t output).thread 0).todo = _ from ht]
      rfl
    rw [this]
    rfl
  have e : (Lazies.start (fun _ => false) (fun _ => .forces 0 next) todo output).run [0] =
      ({ (Lazies.start (fun _ => false) (fun _ => .forces 0 next) todo output).mark 0 (.busy 0) with
          called := [0] }.goto 0 ⟨[(0, .forces 0 next)], todo 0, output 0, none⟩) := by
    show ((Lazies.start _ _ todo output).step 0).getD _ = _
    rw [h1 todo h0]
    rfl
  have h := C120_false_ring (fun _ => false) (fun _ => .forces 0 next) todo output [0] js (· = 0)
    (fun i hi => by
      subst hi
      rw [e]
      exact ⟨0, 0, rfl, rfl, rfl, .inl rfl⟩) 0 rfl
  rw [h, e]
  rfl

example : (fun _ : Nat => [Part.lazy 0 id]) 0 = Part.lazy 0 id :: [] := rfl

/-- Values that need each other: `0` the value `1`, and all others the value `0`. -/
def eachOther (k : Nat) : Maker := .forces (if k = 0 then 1 else 0) fun v => .gives v

/-- C120 is false of two `LazyLock`s whose initialisers need each other's values: two threads that
encode one each wait for each other forever. -/
theorem C120_false_two (output : Nat → Output) (js : List Nat) (i : Nat) (hi : i < 2) :
    (((Lazies.start (fun _ => false) eachOther (fun i => [.lazy i id]) output).run ([0, 1] ++ js)).thread
      i).ending = none := by
  have h := C120_false_ring (fun _ => false) eachOther (fun i => [.lazy i id]) output [0, 1] js (· < 2)
    (fun i hi => by
      match i, hi with
      | 0, _ => exact ⟨1, 1, rfl, rfl, by decide, .inl rfl⟩
      | 1, _ => exact ⟨0, 0, rfl, rfl, by decide, .inl rfl⟩) i hi
  rw [h]
  match i, hi with
  | 0, _ => rfl
  | 1, _ => rfl

example : (1 : Nat) < 2 := by decide

/-- C120 is false of a `LazyCell` whose initialiser forces it: encoding it panics, though no initialiser
panics of itself, and there is no such thing as the value that it makes. -/
theorem C120_false_cell (output : Nat → Output) :
    (((Lazies.start (fun _ => true) (fun _ => .forces 0 .gives) (fun _ => [.lazy 0 id])
      output).run [0, 0]).thread 0).ending = some .notMade ∧
    ∀ r, ¬Makes (fun _ => .forces 0 .gives) (.forces 0 .gives) r := by
  refine ⟨rfl, fun r h => ?_⟩
  have : ∀ {m r}, Makes (fun _ => .forces 0 .gives) m r → m ≠ .forces 0 .gives := by
    intro m r h
    induction h with
    | gives => exact fun e => (nomatch e)
    | panics => exact fun e => (nomatch e)
    | forces _ _ ih1 _ => exact absurd rfl ih1
    | forcesNone _ ih => exact absurd rfl ih
  exact this h rfl

end Oct.Props
