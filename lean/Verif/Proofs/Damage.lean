import Verif.Spec.Damage
import Verif.Spec.Sizes
import Verif.Proofs.Evolution
import Verif.Proofs.Local
import Verif.Proofs.Yields
import Verif.Proofs.Balanced
import Verif.Props.Language
/- For C140. -/
namespace Oct
open Spec
variable {α β : Type}

/-- What decoding takes is what the value stands for. -/
theorem Local.takes {d : Dec α} (hl : Local d) {pre D : List Byte} {v : α} {i : Input}
    (h : d ⟨pre ++ D, pre.length⟩ = (.ok v, i)) :
    ∃ n ≤ D.length, i = ⟨pre ++ D, pre.length + n⟩ ∧ Yields d (D.take n) (.ok v) := by
  obtain ⟨r, n, hn, h1, h2⟩ := hl D
  rw [h1 pre] at h
  obtain ⟨rfl, rfl⟩ := Prod.mk.inj h
  refine ⟨n, hn, rfl, fun pre post => ?_⟩
  rw [h2 (by simp) pre post, List.length_take, Nat.min_eq_left hn]

theorem prefix_bind {m : Dec α} {k : α → Dec β} {A : List Byte} {a : α} (h : Yields m A (.ok a))
    (pre D : List Byte) :
    (m >>= k) ⟨pre ++ (A ++ D), pre.length⟩ = k a ⟨(pre ++ A) ++ D, (pre ++ A).length⟩ := by
  show Dec.bind m k _ = _
  unfold Dec.bind
  rw [h pre D, List.append_assoc, List.length_append]

theorem onlyPart_bind {d : Dec α} {k : α → Dec β} {f : α → β} {g : DecErr → DecErr} {B B' C : List Byte} {v : α}
    (hl : Local d) (h1 : ∀ (a b : List Byte) (v w : α), Yields d a (.ok v) → Yields d b (.ok w) → a.length = b.length)
    (hB : Yields d B (.ok v)) (hB' : B'.length = B.length) (hk : ∀ x, Yields (k x) C (.ok (f x)))
    (pre rest : List Byte) :
    (d.mapErr g >>= k) ⟨pre ++ (B' ++ (C ++ rest)), pre.length⟩ =
      OnlyPart (d ⟨pre ++ (B' ++ (C ++ rest)), pre.length⟩) f g C.length := by
  show Dec.bind _ k _ = _
  unfold Dec.bind Dec.mapErr
  cases hd : d ⟨pre ++ (B' ++ (C ++ rest)), pre.length⟩ with
  | mk r i =>
    cases r with
    | ok x =>
      obtain ⟨n, hn, rfl, hy⟩ := hl.takes hd
      have hlen := h1 _ _ _ _ hy hB
      rw [List.length_take, Nat.min_eq_left hn] at hlen
      obtain rfl : n = B'.length := by omega
      have h2 := hk x (pre ++ B') rest
      rw [List.append_assoc, List.length_append] at h2
      simp only [Res.mapErr, OnlyPart]
      rw [h2]
      rfl
    | err e => rfl
    | panic p => rfl
    | ub u => rfl

theorem OnlyPart.map {γ : Type} (part : Res DecErr α × Input) (f : α → β) (h : β → γ) (g : DecErr → DecErr) (n : Nat) :
    OnlyPart part (fun x => h (f x)) g n = ((OnlyPart part f g n).1.map h, (OnlyPart part f g n).2) := by
  rcases part with ⟨r, i⟩
  cases r <;> rfl

/-- The items of a collection, as a list. -/
def itemsList (dec : Dec α) (n j : Nat) : Dec (List α) := decItems dec n j >>= fun vs => pure vs.val

theorem itemsList_succ (dec : Dec α) (n j : Nat) (i : Input) :
    itemsList dec (n + 1) j i =
      ((dec.mapErr fun e => .badItem (.item j e)) >>= fun v => itemsList dec n (j + 1) >>= fun l => pure (v :: l)) i := by
  unfold itemsList
  simp only [decItems, bind, Dec.bind, pure, Dec.pure]
  cases h : (dec.mapErr fun e => .badItem (.item j e)) i with
  | mk r i1 =>
    cases r with
    | ok v =>
      simp only
      cases h2 : decItems dec n (j + 1) i1 with
      | mk r2 i2 => cases r2 <;> rfl
    | err e => rfl
    | panic p => rfl
    | ub u => rfl

theorem itemsList_all {dec : Dec α} {R : List Byte} {l : List α} (h : InTurn dec R l) (j : Nat) :
    Yields (itemsList dec l.length j) R (.ok l) := by
  induction h generalizing j with
  | nil => exact Yields.pure _
  | @cons b bs a l hb _ ih =>
    have h1 : Yields ((dec.mapErr fun e => .badItem (.item j e)) >>= fun v =>
        itemsList dec l.length (j + 1) >>= fun l => pure (v :: l)) (b ++ bs) (.ok (a :: l)) :=
      Yields.bind (hb.mapErr _) ((ih (j + 1)).map (Yields.pure _))
    intro pre rest
    exact (itemsList_succ dec l.length j _).trans (h1 pre rest)

/-- One of the items is changed. -/
theorem itemsList_damaged {dec : Dec α} (hl : Local dec)
    (h1 : ∀ (a b : List Byte) (v w : α), Yields dec a (.ok v) → Yields dec b (.ok w) → a.length = b.length)
    {R1 R2 B B' : List Byte} {l1 l2 : List α} {v : α} (hR1 : InTurn dec R1 l1) (hB : Yields dec B (.ok v))
    (hB' : B'.length = B.length) (hR2 : InTurn dec R2 l2) (rest : List Byte) (j : Nat) (pre : List Byte) :
    itemsList dec (l1.length + (l2.length + 1)) j ⟨pre ++ (R1 ++ (B' ++ (R2 ++ rest))), pre.length⟩ =
      OnlyPart (dec ⟨pre ++ R1 ++ (B' ++ (R2 ++ rest)), (pre ++ R1).length⟩) (fun x => l1 ++ x :: l2)
        (fun e => .badItem (.item (j + l1.length) e)) R2.length := by
  induction hR1 generalizing j pre with
  | nil =>
    rw [List.length_nil, Nat.zero_add, itemsList_succ]
    simp only [List.nil_append, List.append_nil, Nat.add_zero]
    exact onlyPart_bind (k := fun v => itemsList dec l2.length (j + 1) >>= fun l => pure (v :: l))
      (f := fun x => x :: l2) hl h1 hB hB' (fun x => (itemsList_all hR2 (j + 1)).map (Yields.pure _)) pre rest
  | @cons b bs a l hb _ ih =>
    rw [List.length_cons, Nat.add_right_comm l.length 1, itemsList_succ, List.append_assoc,
      prefix_bind (hb.mapErr _)]
    show Dec.bind (itemsList _ _ _) _ _ = _
    unfold Dec.bind
    rw [ih (j + 1) (pre ++ b)]
    simp only [List.cons_append, List.append_assoc]
    rw [OnlyPart.map _ (fun x => l ++ x :: l2) (a :: ·)]
    rw [show j + 1 + l.length = j + (l.length + 1) from by omega]
    cases OnlyPart _ _ _ _ with
    | mk r i => cases r <;> rfl

/-- One of the fields is changed. -/
theorem fields_damaged {t : Ty} (h1 : OneLength t) {fs gs : Fields} {g : DecErr → DecErr} {A B B' C : List Byte}
    {a : fs.Val} {v : t.Val} {c : gs.Val} (hA : Yields (fs.decode g) A (.ok a)) (hB : Yields t.decode B (.ok v))
    (hB' : B'.length = B.length) (hC : Yields (gs.decode g) C (.ok c)) (pre rest : List Byte) :
    (appendFields fs (.cons t gs)).decode g ⟨pre ++ (A ++ (B' ++ (C ++ rest))), pre.length⟩ =
      OnlyPart (t.decode ⟨pre ++ A ++ (B' ++ (C ++ rest)), (pre ++ A).length⟩)
        (fun x => appendVals fs (gs := .cons t gs) a (x, c)) g C.length := by
  rw [Fields.decode_append]
  show (fs.decode g >>= fun v => (Fields.cons t gs).decode g >>= fun w => pure (appendVals fs v w)) _ = _
  rw [prefix_bind hA]
  show Dec.bind ((Fields.cons t gs).decode g) _ _ = _
  unfold Dec.bind
  have h2 : (Fields.cons t gs).decode g ⟨pre ++ A ++ (B' ++ (C ++ rest)), (pre ++ A).length⟩ =
      OnlyPart (t.decode ⟨pre ++ A ++ (B' ++ (C ++ rest)), (pre ++ A).length⟩) (fun x => (x, c)) g C.length :=
    onlyPart_bind (k := fun v => gs.decode g >>= fun vs => pure (v, vs)) (f := fun x => (x, c)) t.decode_local h1 hB hB'
      (fun x => hC.map (Yields.pure _)) (pre ++ A) rest
  rw [h2, OnlyPart.map _ (fun x => (x, c)) (appendVals fs (gs := .cons t gs) a)]
  cases OnlyPart _ _ _ _ with
  | mk r i => cases r <;> rfl

mutual

theorem fixed_sound : (t : Ty) → (n : Nat) → fixedSize t = some n → t.WF ∧ ∀ v, Supported t v
  | .num _, _, _ | .bool, _, _ | .char, _, _ | .usize, _, _ | .isize, _, _ | .nonZero _, _, _
  | .unit _, _, _ | .duration, _, _ | .systemTime _, _, _ | .ipv4, _, _ | .ipv6, _, _
  | .socketAddrV4, _, _ | .socketAddrV6, _, _ => ⟨trivial, fun _ => trivial⟩
  | .wrap _ t, n, h => fixed_sound t n h
  | .lock _ t, n, h => ⟨(fixed_sound t n h).1, fun v => (fixed_sound t n h).2 v.val⟩
  | .refCell t, n, h => ⟨(fixed_sound t n h).1, fun v => (fixed_sound t n h).2 v.val⟩
  | .array t m, n, h => by
    simp only [fixedSize, Option.map_eq_some_iff] at h
    obtain ⟨k, hk, _⟩ := h
    exact ⟨(fixed_sound t k hk).1, fun v x _ => (fixed_sound t k hk).2 x⟩
  | .range t, n, h => by
    simp only [fixedSize, Option.map_eq_some_iff] at h
    obtain ⟨k, hk, _⟩ := h
    exact ⟨(fixed_sound t k hk).1, fun v => ⟨(fixed_sound t k hk).2 _, (fixed_sound t k hk).2 _⟩⟩
  | .rangeInclusive t, n, h => by
    simp only [fixedSize, Option.map_eq_some_iff] at h
    obtain ⟨k, hk, _⟩ := h
    exact ⟨(fixed_sound t k hk).1, fun v => ⟨(fixed_sound t k hk).2 _, (fixed_sound t k hk).2 _⟩⟩
  | .tuple fs, n, h => fixedFields_sound fs n h
  | .struct fs, n, h => fixedFields_sound fs n h
  | .infallible, _, h | .seq _ _, _, h | .hashMap _ _, _, h | .hashSet _, _, h | .option _, _, h
  | .result _ _, _, h | .bound _, _, h | .ipAddr, _, h | .socketAddr, _, h | .str _, _, h | .cStr _, _, h
  | .sizedStr _, _, h | .sizedSlice _ _, _, h | .enum _ _, _, h => nomatch h

theorem fixedFields_sound : (fs : Fields) → (n : Nat) → fixedSizeFields fs = some n →
    fs.WF ∧ ∀ v, SupportedFields fs v
  | .nil, _, _ => ⟨trivial, fun _ => trivial⟩
  | .cons t fs, n, h => by
    simp only [fixedSizeFields] at h
    cases ht : fixedSize t with
    | none => rw [ht] at h; simp at h
    | some a =>
      cases hf : fixedSizeFields fs with
      | none => rw [ht, hf] at h; simp at h
      | some b =>
        have h1 := fixed_sound t a ht
        have h2 := fixedFields_sound fs b hf
        exact ⟨⟨h1.1, h2.1⟩, fun v => ⟨h1.2 v.1, h2.2 v.2⟩⟩

end

theorem yields_accepts {t : Ty} (ht : t.WF) {a : List Byte} {v : t.Val} (h : Yields t.decode a (.ok v)) :
    Accepts t a v := by
  have h1 := h [] []
  simp only [List.nil_append, List.append_nil, List.length_nil, Nat.zero_add] at h1
  obtain ⟨bs, rest, h2, h3, h4⟩ := (Props.C52_accepted t ht _ _ v).mp h1
  have h5 : a.length = bs.length := by simpa using congrArg Input.pos h4
  have h6 : a = bs ++ rest := by simpa using h2
  have h7 : rest = [] := by
    have := congrArg List.length h6
    rw [List.length_append] at this
    exact List.length_eq_zero_iff.1 (by omega)
  rw [h6, h7, List.append_nil]
  exact h3

theorem octet_yields (x : Byte) : Yields (Ty.num (.int .u8)).decode [x] (.ok x.toBitVec) := by
  have h : (show BitVec 8 from BitVec.ofNat 8 (fromLe [x])) = x.toBitVec := by
    apply BitVec.eq_of_toNat_eq
    simp [fromLe]
  have h1 : Yields (Ty.num (.int .u8)).decode [x] (.ok (BitVec.ofNat 8 (fromLe [x]))) :=
    (decNum_yields [x]).map (Yields.pure _)
  exact (congrArg (fun y => Yields (Ty.num (.int .u8)).decode [x] (.ok y)) h).mp h1

theorem octet_field_yields (x : Byte) (g : DecErr → DecErr) :
    Yields (Fields.decode (.cons (.num (.int .u8)) .nil) g) [x] (.ok (x.toBitVec, ())) :=
  ((octet_yields x).mapErr g).map ((Yields.pure ()).map (Yields.pure _))

end Oct
