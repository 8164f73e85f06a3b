import Verif.Proofs.TallyFits
/- Lemmas for C133: how much encoding a value of a type costs. -/
set_option linter.unusedVariables false
namespace Oct
open Spec Effort

theorem Ty.tally_onward (p : Prices) (t : Ty) (v : t.Val) : Onward (t.tally p v) := t.tally_inv (onward_inv p) v

theorem Fields.tally_onward (p : Prices) (fs : Fields) (g : EncErr → EncErr) (v : fs.Val) :
    Onward (fs.tally p g v) := fs.tally_inv (onward_inv p) g v

theorem Ty.tally_puts (p : Prices) (t : Ty) (h : EmitsSome t) (v : t.Val) : Effort.Puts (t.tally p v) := by
  intro o ho hf
  have h0 := t.tally_onward p v o ho
  have hs := t.tally_same p v o
  have hq : t.encode v o = (.ok (), (t.tally p v o).1.2) := by
    rw [← hs]
    revert hf
    generalize t.tally p v o = q
    obtain ⟨⟨r, o'⟩, c⟩ := q
    intro hf
    cases r with
    | ok a => rfl
    | err _ =>
      exact nomatch hf
    | panic _ =>
      exact nomatch hf
    | ub _ =>
      exact nomatch hf
  have h1 := (t.encode_puts h v o _ ho hq).2
  unfold Output.remaining Output.capacity Output.position at h1
  unfold written Output.position
  omega

/-- The most that one part of a type costs by itself: a socket address. -/
def Prices.most (p : Prices) : Nat := 8 * p.call + 5 * p.write

/-- Some share of `P` is spent at once, and the rest for each octet. -/
def Sharing {α : Type} (P : Nat) (m : α → Effort) : Prop :=
  ∃ a A B, a ≤ A ∧ A ≤ P ∧ a + B ≤ P ∧ ∀ v, Fits a A B (m v)

theorem Sharing.leaf {α : Type} {p : Prices} {P c : Nat} {m : α → Effort} (h : ∀ v, Fits c c 0 (m v))
    (hc : c ≤ P) : Sharing P m := ⟨c, c, 0, Nat.le_refl _, hc, hc, h⟩

theorem tallyUsize_fits (p : Prices) (n : Nat) :
    Fits (p.call + (p.call + p.write)) (p.call + (p.call + p.write)) 0 (tallyUsize p n) := by
  unfold tallyUsize
  split
  · exact (Fits.num p 2 n).call p
  · exact ((Fits.free _).mono (Nat.zero_le _) (Nat.zero_le _) (Nat.le_refl _)).call p

theorem tallyIsize_fits (p : Prices) (x : Int) :
    Fits (p.call + (p.call + p.write)) (p.call + (p.call + p.write)) 0 (tallyIsize p x) := by
  unfold tallyIsize
  split
  · exact (Fits.num p 2 _).call p
  · exact ((Fits.free _).mono (Nat.zero_le _) (Nat.zero_le _) (Nat.le_refl _)).call p

theorem tallyRepr_fits (p : Prices) : (r : Repr) → (x : Int) →
    Fits (p.call + (p.call + p.write)) (p.call + (p.call + p.write)) 0 (tallyRepr p r x)
  | .int k, x => (Fits.num p _ _).mono (by omega) (by omega) (Nat.le_refl _)
  | .usize, x => tallyUsize_fits p _
  | .isize, x => tallyIsize_fits p x

theorem tallySystemTime_fits (p : Prices) (t : TimePlatform) (ns : Int) :
    Fits (p.call + (p.call + p.write)) (p.call + (p.call + p.write)) 0 (tallySystemTime p t ns) := by
  unfold tallySystemTime
  dsimp only
  split
  · exact (Fits.num p _ _).call p
  · split
    · split
      · exact ((Fits.free _).mono (Nat.zero_le _) (Nat.zero_le _) (Nat.le_refl _)).call p
      · exact (Fits.num p _ _).call p
    · exact (Fits.num p _ _).call p

theorem tallyNum_onward (p : Prices) (n x : Nat) : Onward (tallyNum p n x) := fun o ho => by
  show (encNum n x o).2.WF ∧ (encNum n x o).2.buf.length = _ ∧ _ ≤ (encNum n x o).2.pos
  rcases encNum_cases n x ho with h | h
  · exact ⟨h.2.1, h.2.2.1, by omega⟩
  · rw [h.2]; exact ⟨ho, rfl, Nat.le_refl _⟩

theorem tallySocketAddrV4_fits (p : Prices) (a : SocketAddrV4Val) :
    Fits (3 * p.call + p.call + 2 * p.write) (3 * p.call + p.call + 2 * p.write) 0 (tallySocketAddrV4 p a) :=
  ((((Fits.num p _ _).call p).andThen ((onward_inv p).ipv4 _) (Fits.num p _ _) (tallyNum_onward p _ _)
    (Nat.le_refl _)).call p).mono (by omega) (by omega) (Nat.le_refl _)

theorem tallySocketAddrV6_fits (p : Prices) (a : SocketAddrV6Val) :
    Fits (6 * p.call + 4 * p.write) (6 * p.call + 4 * p.write) 0 (tallySocketAddrV6 p a) :=
  ((((Fits.num p _ _).call p).andThen ((onward_inv p).ipv6 _)
    ((Fits.num p _ _).andThen (tallyNum_onward p _ _)
      ((Fits.num p _ _).andThen (tallyNum_onward p _ _) (Fits.num p _ _) (tallyNum_onward p _ _) (Nat.le_refl _))
      ((onward_inv p).andThen (tallyNum_onward p _ _) (tallyNum_onward p _ _)) (Nat.le_refl _))
    ((onward_inv p).andThen (tallyNum_onward p _ _) ((onward_inv p).andThen (tallyNum_onward p _ _)
      (tallyNum_onward p _ _))) (Nat.le_refl _)).call p).mono (by omega) (by omega) (Nat.le_refl _)

theorem tallySlice_fits {α : Type} {A B : Nat} {p : Prices} {m : α → Effort} (h : ∀ v, Fits 0 A B (m v))
    (hO : ∀ v, Onward (m v)) (l : List α) :
    Fits (3 * p.call + p.write) (3 * p.call + p.write + A) B (tallySlice p m l) :=
  ((((tallyUsize_fits p _).mapErr _).andThen ((onward_inv p).mapErr _ ((onward_inv p).usize _))
    (tallyItems_fits h hO p _ 0 l) ((onward_inv p).items hO _ 0 l) (Nat.le_refl _)).call p).mono
    (by omega) (by omega) (by omega)

theorem tallyLinkedList_fits {α : Type} {A B : Nat} {p : Prices} {m : α → Effort} (h : ∀ v, Fits 0 A B (m v))
    (hO : ∀ v, Onward (m v)) (l : List α) :
    Fits (3 * p.call + p.write) (3 * p.call + p.write + A) B (tallyLinkedList p m l) :=
  ((((tallyUsize_fits p _).mapErr _).andThen ((onward_inv p).mapErr _ ((onward_inv p).usize _))
    (tallyItems_fits h hO p _ 0 l) ((onward_inv p).items hO _ 0 l) (Nat.le_refl _)).call p).mono
    (by omega) (by omega) (by omega)

theorem tallyBytes_fits (p : Prices) (bs : List Byte) :
    Fits (3 * p.call + p.write) (3 * p.call + p.write + (p.call + p.write)) (p.call + p.write)
      (tallyBytes p bs) := by
  have h : ∀ b : Byte, Fits 0 (p.call + p.write) (p.call + p.write) (tallyNum p 1 b.toNat) := fun b => by
    refine (Fits.charge (Fits.num p 1 b.toNat) ?_).mono (Nat.le_refl _) (Nat.le_refl _) (Nat.le_refl _)
    intro o ho hf
    rcases encNum_cases 1 b.toNat ho with h | h
    · show 0 < (encNum 1 b.toNat o).2.pos - o.pos
      omega
    · change finished (encNum 1 b.toNat o).1 = true at hf
      rw [h.1] at hf
      exact nomatch hf
  exact tallySlice_fits (α := Byte) (p := p) h (fun b => tallyNum_onward p 1 b.toNat) bs

theorem tallyBool_fits (p : Prices) (b : Bool) :
    Fits (p.call + (p.call + p.write)) (p.call + (p.call + p.write)) 0 (tallyBool p b) := (Fits.num p 1 _).call p

/-- A call that does what a part does. -/
theorem Sharing.call {α : Type} {p : Prices} {q : Nat} {m : α → Effort} (h : Sharing (p.most * q) m) :
    Sharing (p.most * (1 + q)) (fun v => (m v).call p) := by
  obtain ⟨a, A, B, h1, h2, h3, hF⟩ := h
  rw [Nat.mul_add, Nat.mul_one]
  revert h2 h3
  generalize p.most * q = X
  intro h2 h3
  unfold Prices.most
  exact ⟨_, _, _, by omega, by omega, by omega, fun v => (hF v).call p⟩

mutual

theorem Ty.tally_within (p : Prices) : (t : Ty) → Thrifty t → Sharing (p.most * parts t) (t.tally p)
  | .num k, _ => .leaf (p := p) (fun v => Fits.num p _ _) (by show _ ≤ p.most * 1; unfold Prices.most; omega)
  | .bool, _ => .leaf (p := p) (fun v => tallyBool_fits p v) (by show _ ≤ p.most * 1; unfold Prices.most; omega)
  | .char, _ => .leaf (p := p) (fun v => (Fits.num p _ _).call p)
      (by show _ ≤ p.most * 1; unfold Prices.most; omega)
  | .usize, _ => .leaf (p := p) (fun v => tallyUsize_fits p v) (by show _ ≤ p.most * 1; unfold Prices.most; omega)
  | .isize, _ => .leaf (p := p) (fun v => tallyIsize_fits p v) (by show _ ≤ p.most * 1; unfold Prices.most; omega)
  | .nonZero r, _ => .leaf (p := p) (fun v => (tallyRepr_fits p r v.val).call p)
      (by show _ ≤ p.most * 1; unfold Prices.most; omega)
  | .unit _, _ => .leaf (p := p) (fun v => (Fits.free _).call p) (by show _ ≤ p.most * 1; unfold Prices.most; omega)
  | .infallible, _ => .leaf (p := p) (c := 0) (fun v => nomatch v) (Nat.zero_le _)
  | .wrap _ t, h => (t.tally_within p h.2).call
  | .array t n, h => by
    obtain ⟨a, A, B, h1, h2, h3, hF⟩ := t.tally_within p h.2
    refine Sharing.call (m := fun v : Items t.Val n => tallyItems (t.tally p) _ 0 v.val)
      ⟨n * a, n * A, n * B, Nat.mul_le_mul_left n h1, ?_, ?_, fun v => ?_⟩
    · rw [Nat.mul_left_comm]; exact Nat.mul_le_mul_left n h2
    · rw [← Nat.mul_add, Nat.mul_left_comm]; exact Nat.mul_le_mul_left n h3
    · have := tallyItems_fits_length hF (t.tally_onward p) h1 p (fun i e => .badItem (.item i e)) 0 v.val
      rw [v.property] at this
      exact this
  | .seq k t, h => by
    obtain ⟨a, A, B, h1, h2, h3, hF⟩ := t.tally_within p h.2
    have hG : ∀ v, Fits 0 A (a + B) (t.tally p v) := fun v => (hF v).charge (t.tally_puts p h.1 v)
    show Sharing (p.most * (1 + parts t)) _
    rw [Nat.mul_add, Nat.mul_one]
    revert h2 h3
    generalize p.most * parts t = X
    intro h2 h3
    unfold Prices.most
    refine ⟨4 * p.call + p.write, 4 * p.call + p.write + A, a + B, by omega, by omega, by omega, ?_⟩
    cases k with
    | slice =>
      exact fun v => (tallySlice_fits hG (t.tally_onward p) v).mono (by omega) (by omega) (Nat.le_refl _)
    | vec =>
      exact fun v => ((tallySlice_fits hG (t.tally_onward p) v).call p).mono (by omega) (by omega)
        (Nat.le_refl _)
    | linkedList =>
      exact fun v => (tallyLinkedList_fits hG (t.tally_onward p) v).mono (by omega) (by omega)
        (Nat.le_refl _)
  | .hashMap k v, h => by
    obtain ⟨a, A, B, h1, h2, h3, hF⟩ := k.tally_within p h.2.1
    obtain ⟨a', A', B', h1', h2', h3', hF'⟩ := v.tally_within p h.2.2
    have hG : ∀ x y, Fits 0 (A + A') ((a + a') + (B + B')) ((k.tally p x).andThen (v.tally p y)) := fun x y => by
      refine ((hF x).andThen (k.tally_onward p x) (hF' y) (v.tally_onward p y) h1).charge ?_
      intro o ho hf
      cases hf1 : finished (k.tally p x o).1.1 with
      | true =>
        rw [andThen_ok hf1] at hf ⊢
        have h0 := k.tally_onward p x o ho
        have h0' := v.tally_onward p y _ h0.1
        rw [Fits.written_add h0.2.2 h0'.2.2]
        rcases h.1 with hE | hE
        · have := k.tally_puts p hE x o ho hf1
          omega
        · have := v.tally_puts p hE y _ h0.1 hf
          omega
      | false =>
        rw [(andThen_not (n := v.tally p y) hf1).1] at hf
        exact nomatch hf
    refine Sharing.call (m := fun m : Ty.Val (.hashMap k v) => tallyEntries (k.tally p) (v.tally p) m.val)
      ⟨0, A + A', (a + a') + (B + B'), Nat.zero_le _, ?_, ?_, fun m =>
        tallyEntries_fits hG (k.tally_onward p) (v.tally_onward p) p m.val⟩ <;> rw [Nat.mul_add] <;> omega
  | .hashSet k, h => by
    obtain ⟨a, A, B, h1, h2, h3, hF⟩ := k.tally_within p h.2
    exact Sharing.call (m := fun s : Ty.Val (.hashSet k) => tallyKeys (k.tally p) s.val)
      ⟨0, A, a + B, Nat.zero_le _, h2, by omega, fun s =>
        tallyKeys_fits (fun x => (hF x).charge (k.tally_puts p h.1 x)) (k.tally_onward p) p s.val⟩
  | .option t, h => by
    obtain ⟨a, A, B, h1, h2, h3, hF⟩ := t.tally_within p h.2
    show Sharing (p.most * (1 + parts t)) _
    rw [Nat.mul_add, Nat.mul_one]
    revert h2 h3
    generalize p.most * parts t = X
    intro h2 h3
    unfold Prices.most
    refine ⟨3 * p.call + p.write + a, 3 * p.call + p.write + A, B, by omega, by omega, by omega, fun v => ?_⟩
    match v with
    | none =>
      exact ((tallyBool_fits p false).call p).mono (by omega) (by omega) (by omega)
    | some v =>
      exact (((tallyBool_fits p true).andThen ((onward_inv p).bool true) (hF v) (t.tally_onward p v)
        (Nat.le_refl _)).call p).mono (by omega) (by omega) (by omega)
  | .result t e, h => by
    obtain ⟨a, A, B, h1, h2, h3, hF⟩ := t.tally_within p h.2.1
    obtain ⟨a', A', B', h1', h2', h3', hF'⟩ := e.tally_within p h.2.2
    show Sharing (p.most * (1 + (parts t + parts e))) _
    rw [Nat.mul_add, Nat.mul_one, Nat.mul_add]
    revert h2 h3 h2' h3'
    generalize p.most * parts t = X
    generalize p.most * parts e = Y
    intro h2 h3 h2' h3'
    unfold Prices.most
    refine ⟨3 * p.call + p.write + (a + a'), 3 * p.call + p.write + (A + A'), B + B', by omega, by omega, by omega,
      fun v => ?_⟩
    match v with
    | .ok v =>
      exact (((tallyBool_fits p false).andThen ((onward_inv p).bool false) (hF v) (t.tally_onward p v)
        (Nat.le_refl _)).call p).mono (by omega) (by omega) (by omega)
    | .err v =>
      exact (((tallyBool_fits p true).andThen ((onward_inv p).bool true) ((hF' v).mapErr _)
        ((onward_inv p).mapErr _ (e.tally_onward p v)) (Nat.le_refl _)).call p).mono (by omega) (by omega) (by omega)
  | .bound t, h => by
    obtain ⟨a, A, B, h1, h2, h3, hF⟩ := t.tally_within p h.2
    show Sharing (p.most * (1 + parts t)) _
    rw [Nat.mul_add, Nat.mul_one]
    revert h2 h3
    generalize p.most * parts t = X
    intro h2 h3
    unfold Prices.most
    refine ⟨2 * p.call + p.write + a, 2 * p.call + p.write + A, B, by omega, by omega, by omega, fun v => ?_⟩
    match v with
    | .included v =>
      exact (((Fits.num p 1 0).andThen (tallyNum_onward p _ _) ((hF v).mapErr _)
        ((onward_inv p).mapErr _ (t.tally_onward p v)) (Nat.le_refl _)).call p).mono (by omega) (by omega) (by omega)
    | .excluded v =>
      exact (((Fits.num p 1 1).andThen (tallyNum_onward p _ _) ((hF v).mapErr _)
        ((onward_inv p).mapErr _ (t.tally_onward p v)) (Nat.le_refl _)).call p).mono (by omega) (by omega) (by omega)
    | .unbounded =>
      exact ((Fits.num p 1 2).call p).mono (by omega) (by omega) (by omega)
  | .range t, h => by
    obtain ⟨a, A, B, h1, h2, h3, hF⟩ := t.tally_within p h.2
    refine Sharing.call (m := fun v : RangeVal t.Val => (t.tally p v.start).andThen (t.tally p v.stop))
      ⟨a + a, A + A, B + B, by omega, ?_, ?_, fun v =>
        (hF v.start).andThen (t.tally_onward p _) (hF v.stop) (t.tally_onward p _) h1⟩ <;> rw [Nat.mul_add] <;> omega
  | .rangeInclusive t, h => by
    obtain ⟨a, A, B, h1, h2, h3, hF⟩ := t.tally_within p h.2
    refine Sharing.call (m := fun v : RangeInclusiveVal t.Val => (t.tally p v.start).andThen (t.tally p v.stop))
      ⟨a + a, A + A, B + B, by omega, ?_, ?_, fun v =>
        (hF v.start).andThen (t.tally_onward p _) (hF v.stop) (t.tally_onward p _) h1⟩ <;> rw [Nat.mul_add] <;> omega
  | .lock _ t, h => by
    obtain ⟨a, A, B, h1, h2, h3, hF⟩ := t.tally_within p h.2
    exact Sharing.call (m := fun v : LockVal t.Val => t.tally p v.val) ⟨a, A, B, h1, h2, h3, fun v => hF v.val⟩
  | .refCell t, h => by
    obtain ⟨a, A, B, h1, h2, h3, hF⟩ := t.tally_within p h.2
    refine Sharing.call (m := fun c : RefCellVal t.Val =>
      if c.mutBorrowed then .of 0 (Enc.fail .badBorrow) else (t.tally p c.val).mapErr .badValue)
      ⟨a, A, B, h1, h2, h3, fun v => ?_⟩
    dsimp only
    split
    · exact (Fits.free _).mono (Nat.zero_le _) (Nat.zero_le _) (Nat.zero_le _)
    · exact (hF v.val).mapErr _
  | .duration, _ => .leaf (p := p)
      (fun v => ((Fits.num p _ _).andThen (tallyNum_onward p _ _) (Fits.num p _ _) (tallyNum_onward p _ _)
        (Nat.le_refl _)).call p) (by show _ ≤ p.most * 1; unfold Prices.most; omega)
  | .systemTime q, _ => .leaf (p := p) (fun v => tallySystemTime_fits p q v.val)
      (by show _ ≤ p.most * 1; unfold Prices.most; omega)
  | .ipv4, _ => .leaf (p := p) (fun v => (Fits.num p _ _).call p) (by show _ ≤ p.most * 1; unfold Prices.most; omega)
  | .ipv6, _ => .leaf (p := p) (fun v => (Fits.num p _ _).call p) (by show _ ≤ p.most * 1; unfold Prices.most; omega)
  | .ipAddr, _ => .leaf (p := p) (c := 4 * p.call + 2 * p.write) (fun v => by
      match v with
      | .v4 a =>
        exact ((((Fits.num p _ _).mapErr _).andThen ((onward_inv p).mapErr _ (tallyNum_onward p _ _))
          (((Fits.num p _ _).call p).mapErr _) ((onward_inv p).mapErr _ ((onward_inv p).ipv4 a))
          (Nat.le_refl _)).call p).mono (by omega) (by omega) (Nat.le_refl _)
      | .v6 a =>
        exact ((((Fits.num p _ _).mapErr _).andThen ((onward_inv p).mapErr _ (tallyNum_onward p _ _))
          (((Fits.num p _ _).call p).mapErr _) ((onward_inv p).mapErr _ ((onward_inv p).ipv6 a))
          (Nat.le_refl _)).call p).mono (by omega) (by omega) (Nat.le_refl _))
      (by show _ ≤ p.most * 1; unfold Prices.most; omega)
  | .socketAddrV4, _ => .leaf (p := p) (fun v => tallySocketAddrV4_fits p v)
      (by show _ ≤ p.most * 1; unfold Prices.most; omega)
  | .socketAddrV6, _ => .leaf (p := p) (fun v => tallySocketAddrV6_fits p v)
      (by show _ ≤ p.most * 1; unfold Prices.most; omega)
  | .socketAddr, _ => .leaf (p := p) (c := 8 * p.call + 5 * p.write) (fun v => by
      match v with
      | .v4 a =>
        exact (((Fits.num p _ _).andThen (tallyNum_onward p _ _) (tallySocketAddrV4_fits p a)
          ((onward_inv p).socketAddrV4 a) (Nat.le_refl _)).call p).mono (by omega) (by omega) (Nat.le_refl _)
      | .v6 a =>
        exact (((Fits.num p _ _).andThen (tallyNum_onward p _ _) (tallySocketAddrV6_fits p a)
          ((onward_inv p).socketAddrV6 a) (Nat.le_refl _)).call p).mono (by omega) (by omega) (Nat.le_refl _))
      (by show _ ≤ p.most * 1; unfold Prices.most; omega)
  | .str k, _ => by
    show Sharing (p.most * 1) _
    unfold Prices.most
    refine ⟨5 * p.call + p.write, 6 * p.call + 2 * p.write, p.call + p.write, by omega, by omega, by omega, ?_⟩
    cases k with
    | str =>
      exact fun v => ((tallyBytes_fits p v.val).call p).mono (by omega) (by omega) (Nat.le_refl _)
    | string =>
      exact fun v => (((tallyBytes_fits p v.val).call p).call p).mono (by omega) (by omega) (Nat.le_refl _)
  | .cStr k, _ => by
    show Sharing (p.most * 1) _
    unfold Prices.most
    refine ⟨5 * p.call + p.write, 6 * p.call + 2 * p.write, p.call + p.write, by omega, by omega, by omega, ?_⟩
    cases k with
    | cStr =>
      exact fun v => ((tallyBytes_fits p v.val).call p).mono (by omega) (by omega) (Nat.le_refl _)
    | cString =>
      exact fun v => (((tallyBytes_fits p v.val).call p).call p).mono (by omega) (by omega) (Nat.le_refl _)
  | .sizedStr _, _ => by
    show Sharing (p.most * 1) _
    unfold Prices.most
    exact ⟨5 * p.call + p.write, 6 * p.call + 2 * p.write, p.call + p.write, by omega, by omega, by omega,
      fun v => (((tallyBytes_fits p v.val).call p).call p).mono (by omega) (by omega) (Nat.le_refl _)⟩
  | .sizedSlice t n, h => by
    obtain ⟨a, A, B, h1, h2, h3, hF⟩ := t.tally_within p h.2
    show Sharing (p.most * (1 + n * parts t)) _
    rw [Nat.mul_add, Nat.mul_one, Nat.mul_left_comm]
    have h2' := Nat.mul_le_mul_left n h2
    have h3' := Nat.mul_le_mul_left n h3
    have h1' := Nat.mul_le_mul_left n h1
    rw [Nat.mul_add] at h3'
    have hI : ∀ l : List t.Val, l.length ≤ n → Fits (n * a) (n * A) (n * B)
        (tallyItems (t.tally p) (fun i e => .badItem (.item i e)) 0 l) := fun l hl =>
      (tallyItems_fits_length hF (t.tally_onward p) h1 p _ 0 l).mono (Nat.mul_le_mul_right a hl)
        (Nat.mul_le_mul_right A hl) (Nat.mul_le_mul_right B hl)
    revert h2' h3' h1' hI
    generalize n * (p.most * parts t) = X
    generalize n * a = a'
    generalize n * A = A'
    generalize n * B = B'
    intro h2' h3' h1' hI
    unfold Prices.most
    exact ⟨4 * p.call + p.write + a', 4 * p.call + p.write + A', B', by omega, by omega, by omega, fun v =>
      (((((tallyUsize_fits p _).mapErr _).andThen ((onward_inv p).mapErr _ ((onward_inv p).usize _))
        (hI v.val v.property) ((onward_inv p).items (t.tally_onward p) _ 0 v.val) (Nat.le_refl _)).call p).call p).mono
        (by omega) (by omega) (by omega)⟩
  | .tuple fs, h => (fs.tally_within p id h.2).call
  | .struct fs, h => (fs.tally_within p EncErr.toGeneric h.2).call
  | .enum r vs, h => by
    obtain ⟨a, A, B, h1, h2, h3, hF⟩ := vs.tally_within p r none h.2
    show Sharing (p.most * (1 + partsVariants vs)) _
    rw [Nat.mul_add, Nat.mul_one]
    revert h2 h3
    generalize p.most * partsVariants vs = X
    intro h2 h3
    unfold Prices.most
    exact ⟨3 * p.call + p.write + a, 3 * p.call + p.write + A, B, by omega, by omega, by omega,
      fun v => ((hF v).call p).mono (by omega) (by omega) (Nat.le_refl _)⟩

theorem Fields.tally_within (p : Prices) : (fs : Fields) → (g : EncErr → EncErr) →
    EverywhereFields (fun
      | .seq _ t => EmitsSome t
      | .hashMap k v => EmitsSome k ∨ EmitsSome v
      | .hashSet k => EmitsSome k
      | _ => True) fs →
    Sharing (p.most * partsFields fs) (fs.tally p g)
  | .nil, g, _ => ⟨0, 0, 0, Nat.le_refl _, Nat.zero_le _, Nat.zero_le _, fun v => Fits.free _⟩
  | .cons t fs, g, h => by
    obtain ⟨a, A, B, h1, h2, h3, hF⟩ := t.tally_within p h.1
    obtain ⟨a', A', B', h1', h2', h3', hF'⟩ := fs.tally_within p g h.2
    refine ⟨a + a', A + A', B + B', by omega, ?_, ?_, fun v =>
      ((hF v.1).mapErr g).andThen ((onward_inv p).mapErr g (t.tally_onward p _)) (hF' v.2) (fs.tally_onward p g _) h1⟩
    · show _ ≤ p.most * (parts t + partsFields fs)
      rw [Nat.mul_add]; omega
    · show _ ≤ p.most * (parts t + partsFields fs)
      rw [Nat.mul_add]; omega

theorem Variants.tally_within (p : Prices) : (vs : Variants) → (r : Repr) → (prev : Option Nat) →
    EverywhereVariants (fun
      | .seq _ t => EmitsSome t
      | .hashMap k v => EmitsSome k ∨ EmitsSome v
      | .hashSet k => EmitsSome k
      | _ => True) vs →
    ∃ a A B, a ≤ A ∧ A ≤ p.most * partsVariants vs ∧ a + B ≤ p.most * partsVariants vs ∧
      ∀ v, Fits (2 * p.call + p.write + a) (2 * p.call + p.write + A) B (vs.tally p r prev v)
  | .nil, r, prev, _ => ⟨0, 0, 0, Nat.le_refl _, Nat.zero_le _, Nat.zero_le _, fun v => nomatch v⟩
  | .cons d fs vs, r, prev, h => by
    obtain ⟨a, A, B, h1, h2, h3, hF⟩ := fs.tally_within p (fun e => .badField e.toGeneric) h.1
    obtain ⟨a', A', B', h1', h2', h3', hF'⟩ := vs.tally_within p r (some (nextDisc prev d)) h.2
    refine ⟨a + a', A + A', B + B', by omega, ?_, ?_, fun v => ?_⟩
    · show _ ≤ p.most * (partsFields fs + partsVariants vs)
      rw [Nat.mul_add]; omega
    · show _ ≤ p.most * (partsFields fs + partsVariants vs)
      rw [Nat.mul_add]; omega
    · match v with
      | .inl v =>
        exact (((tallyRepr_fits p r _).mapErr _).andThen ((onward_inv p).mapErr _ ((onward_inv p).repr r _)) (hF v)
          (fs.tally_onward p _ v) (Nat.le_refl _)).mono (by omega) (by omega) (by omega)
      | .inr v =>
        exact (hF' v).mono (by omega) (by omega) (by omega)

end

/-- Whatever the outcome, each part of the type is paid for at most once, and once for each octet. -/
theorem Ty.tally_le (p : Prices) (t : Ty) (ht : Thrifty t) (v : t.Val) (o : Output) (ho : o.WF) :
    (t.tally p v o).2 ≤ p.most * parts t * (1 + written o (t.tally p v o).1.2) := by
  obtain ⟨a, A, B, h1, h2, h3, hF⟩ := t.tally_within p ht
  have h := hF v o ho
  refine Nat.le_trans h ?_
  rw [Nat.mul_add, Nat.mul_one]
  refine Nat.add_le_add (by split <;> omega) (Nat.mul_le_mul_right _ (by omega))

end Oct
