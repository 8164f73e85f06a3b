import Verif.Proofs.Recast
/- Lemmas for C135: types that take the place of others read the same. -/
namespace Oct
open Spec
set_option linter.unusedVariables false

/-- What the first decoder reads, the second one reads as the value that `f` gives; and where the
first one panics, so does the second. -/
def Takes {α β : Type} (f : α → β) (d : Dec α) (d' : Dec β) : Prop :=
  ∀ i, match d i with
    | (.ok v, j) => d' i = (.ok (f v), j)
    | (.err _, _) => True
    | (.panic _, _) => ∃ p j, d' i = (.panic p, j)
    | (.ub _, _) => ∃ u j, d' i = (.ub u, j)

namespace Takes
variable {α β γ δ : Type}

theorem refl (d : Dec α) : Takes id d d := by
  intro i
  cases h : d i with
  | mk r j => cases r <;> simp

theorem pure' {f : α → β} {a : α} {b : β} (h : f a = b) : Takes f (pure a : Dec α) (pure b) := by
  intro i; subst h; rfl

theorem fail {f : α → β} (e : DecErr) (d' : Dec β) : Takes f (Dec.fail e) d' := fun _ => trivial

theorem trans {f : α → β} {g : β → γ} {a : Dec α} {b : Dec β} {c : Dec γ} (h : Takes f a b)
    (h' : Takes g b c) : Takes (fun v => g (f v)) a c := by
  intro i
  have hi := h i
  have hi' := h' i
  cases ha : a i with
  | mk r j =>
    rw [ha] at hi
    cases r with
    | ok v =>
      simp only at hi ⊢
      rw [hi] at hi'
      exact hi'
    | err e => trivial
    | panic p =>
      obtain ⟨q, k, hq⟩ := hi
      rw [hq] at hi'
      exact hi'
    | ub p =>
      obtain ⟨q, k, hq⟩ := hi
      rw [hq] at hi'
      exact hi'

/-- The rest may rely on what was read before. -/
theorem bind_of {f : α → β} {g : γ → δ} {d : Dec α} {d' : Dec β} {k : α → Dec γ} {k' : β → Dec δ}
    {p : α → Prop} (hp : ∀ i a j, d i = (.ok a, j) → p a) (h : Takes f d d')
    (hk : ∀ a, p a → Takes g (k a) (k' (f a))) : Takes g (d >>= k) (d' >>= k') := by
  intro i
  have hi := h i
  show match Dec.bind d k i with
    | (.ok v, j) => Dec.bind d' k' i = (.ok (g v), j)
    | (.err _, _) => True
    | (.panic _, _) => ∃ p j, Dec.bind d' k' i = (.panic p, j)
    | (.ub _, _) => ∃ u j, Dec.bind d' k' i = (.ub u, j)
  unfold Dec.bind
  cases hd : d i with
  | mk r j =>
    rw [hd] at hi
    cases r with
    | ok a =>
      simp only at hi ⊢
      rw [hi]
      exact hk a (hp i a j hd) j
    | err e => trivial
    | panic p =>
      obtain ⟨q, l, hq⟩ := hi
      exact ⟨q, l, by rw [hq]⟩
    | ub p =>
      obtain ⟨q, l, hq⟩ := hi
      exact ⟨q, l, by rw [hq]⟩

theorem bind {f : α → β} {g : γ → δ} {d : Dec α} {d' : Dec β} {k : α → Dec γ} {k' : β → Dec δ}
    (h : Takes f d d') (hk : ∀ a, Takes g (k a) (k' (f a))) : Takes g (d >>= k) (d' >>= k') :=
  bind_of (p := fun _ => True) (fun _ _ _ _ => trivial) h fun a _ => hk a

theorem mapErr {f : α → β} {d : Dec α} {d' : Dec β} (g g' : DecErr → DecErr) (h : Takes f d d') :
    Takes f (d.mapErr g) (d'.mapErr g') := by
  intro i
  have hi := h i
  unfold Dec.mapErr
  cases hd : d i with
  | mk r j =>
    rw [hd] at hi
    cases r with
    | ok a => simp only at hi ⊢; rw [hi]; rfl
    | err e => trivial
    | panic p =>
      obtain ⟨q, l, hq⟩ := hi
      exact ⟨q, l, by rw [hq]; rfl⟩
    | ub p =>
      obtain ⟨q, l, hq⟩ := hi
      exact ⟨q, l, by rw [hq]; rfl⟩

theorem mapErr_left {f : α → β} {d : Dec α} {d' : Dec β} (g : DecErr → DecErr) (h : Takes f d d') :
    Takes f (d.mapErr g) d' := by
  intro i
  have hi := h i
  unfold Dec.mapErr
  cases hd : d i with
  | mk r j =>
    rw [hd] at hi
    cases r with
    | ok a => exact hi
    | err e => trivial
    | panic p => exact hi
    | ub p => exact hi

theorem mapErr_right {f : α → β} {d : Dec α} {d' : Dec β} (g : DecErr → DecErr) (h : Takes f d d') :
    Takes f d (d'.mapErr g) := by
  intro i
  have hi := h i
  unfold Dec.mapErr
  cases hd : d i with
  | mk r j =>
    rw [hd] at hi
    cases r with
    | ok a => simp only at hi ⊢; rw [hi]; rfl
    | err e => trivial
    | panic p =>
      obtain ⟨q, l, hq⟩ := hi
      exact ⟨q, l, by rw [hq]; rfl⟩
    | ub p =>
      obtain ⟨q, l, hq⟩ := hi
      exact ⟨q, l, by rw [hq]; rfl⟩

/-- Then the value is put in something. -/
theorem map_right {f : α → β} {d : Dec α} {d' : Dec β} (g : β → γ) (h : Takes f d d') :
    Takes (fun v => g (f v)) d (d' >>= fun v => pure (g v)) := by
  intro i
  have hi := h i
  show match d i with
    | (.ok v, j) => Dec.bind d' (fun v => Dec.pure (g v)) i = (.ok (g (f v)), j)
    | (.err _, _) => True
    | (.panic _, _) => ∃ p j, Dec.bind d' (fun v => Dec.pure (g v)) i = (.panic p, j)
    | (.ub _, _) => ∃ u j, Dec.bind d' (fun v => Dec.pure (g v)) i = (.ub u, j)
  unfold Dec.bind
  cases hd : d i with
  | mk r j =>
    rw [hd] at hi
    cases r with
    | ok a => simp only at hi ⊢; rw [hi]; rfl
    | err e => trivial
    | panic p =>
      obtain ⟨q, l, hq⟩ := hi
      exact ⟨q, l, by rw [hq]⟩
    | ub p =>
      obtain ⟨q, l, hq⟩ := hi
      exact ⟨q, l, by rw [hq]⟩

/-- Then something is made of the value. -/
theorem map_left {f : γ → β} {g : α → γ} {d : Dec α} {d' : Dec β} (h : Takes (fun v => f (g v)) d d') :
    Takes f (d >>= fun v => pure (g v)) d' := by
  intro i
  have hi := h i
  show match Dec.bind d (fun v => Dec.pure (g v)) i with
    | (.ok v, j) => d' i = (.ok (f v), j)
    | (.err _, _) => True
    | (.panic _, _) => ∃ p j, d' i = (.panic p, j)
    | (.ub _, _) => ∃ u j, d' i = (.ub u, j)
  unfold Dec.bind
  cases hd : d i with
  | mk r j =>
    rw [hd] at hi
    cases r with
    | ok a => exact hi
    | err e => trivial
    | panic p => exact hi
    | ub p => exact hi

/-- A decoder may be known by another name. -/
theorem congr {f : α → β} {d e : Dec α} {d' e' : Dec β} (h : Takes f d d') (he : ∀ i, e i = d i)
    (he' : ∀ i, e' i = d' i) : Takes f e e' := by
  intro i
  rw [he i, he' i]
  exact h i

end Takes

theorem Dec.bind_assoc' {α β γ : Type} (d : Dec α) (k : α → Dec β) (l : β → Dec γ) (i : Input) :
    Dec.bind (Dec.bind d k) l i = Dec.bind d (fun a => Dec.bind (k a) l) i := by
  unfold Dec.bind
  cases d i with
  | mk r j => cases r <;> rfl

theorem decItems_takes {α β : Type} {f : α → β} {d : Dec α} {d' : Dec β} (h : Takes f d d') :
    ∀ (n i : Nat), Takes (fun v : Items α n => (⟨v.1.map f, (List.length_map _).trans v.2⟩ : Items β n))
      (decItems d n i) (decItems d' n i)
  | 0, i => .pure' rfl
  | n + 1, i => (h.mapErr _ _).bind fun a => (decItems_takes h n (i + 1)).bind fun v => .pure' rfl

theorem mapInsert_exchange {α β γ δ : Type} [DecidableEq α] [DecidableEq γ] (f : α → γ) (g : β → δ)
    (hf : ∀ a b, f a = f b → a = b) (k : α) (v : β) :
    ∀ l : List (α × β), (mapInsert k v l).map (fun p => (f p.1, g p.2))
      = mapInsert (f k) (g v) (l.map fun p => (f p.1, g p.2))
  | [] => rfl
  | (k', v') :: l => by
    show (if k' = k then (k', v) :: l else (k', v') :: mapInsert k v l).map _
      = if f k' = f k then (f k', g v) :: l.map _ else (f k', g v') :: mapInsert (f k) (g v) (l.map _)
    by_cases h : k' = k
    · rw [if_pos h, if_pos (congrArg f h)]
      rfl
    · rw [if_neg h, if_neg (fun e => h (hf _ _ e)), List.map_cons, mapInsert_exchange f g hf k v l]

theorem decMapLoop_takes {α β γ δ : Type} [DecidableEq α] [DecidableEq γ] {f : α → γ} {g : β → δ}
    (hf : ∀ a b, f a = f b → a = b) {dk : Dec α} {dk' : Dec γ} {d : Dec β} {d' : Dec δ}
    (hk : Takes f dk dk') (h : Takes g d d') : ∀ (n i : Nat) (m : MapVal α β),
      Takes (exchangeEntries f g hf) (decMapLoop dk d n i m) (decMapLoop dk' d' n i (exchangeEntries f g hf m))
  | 0, i, m => .pure' rfl
  | n + 1, i, m => by
    refine (hk.mapErr _ _).bind fun k => (h.mapErr _ _).bind fun v => ?_
    have := decMapLoop_takes hf hk h n (i + 1) ⟨mapInsert k v m.val, mapInsert_nodup k v m.val m.property⟩
    have e : exchangeEntries f g hf ⟨mapInsert k v m.val, mapInsert_nodup k v m.val m.property⟩
        = ⟨mapInsert (f k) (g v) (exchangeEntries f g hf m).val,
          mapInsert_nodup _ _ (exchangeEntries f g hf m).val (exchangeEntries f g hf m).property⟩ :=
      Subtype.ext (mapInsert_exchange f g hf k v m.val)
    rw [e] at this
    exact this

theorem setInsert_exchange {α γ : Type} [DecidableEq α] [DecidableEq γ] (f : α → γ)
    (hf : ∀ a b, f a = f b → a = b) (k : α) (l : List α) :
    (setInsert k l).map f = setInsert (f k) (l.map f) := by
  have h : f k ∈ l.map f ↔ k ∈ l := by
    rw [List.mem_map]
    constructor
    · rintro ⟨a, ha, e⟩
      exact hf _ _ e ▸ ha
    · intro hk
      exact ⟨k, hk, rfl⟩
  unfold setInsert
  by_cases hk : k ∈ l
  · rw [if_pos hk, if_pos (h.mpr hk)]
  · rw [if_neg hk, if_neg (fun e => hk (h.mp e)), List.map_append]
    rfl

theorem decSetLoop_takes {α γ : Type} [DecidableEq α] [DecidableEq γ] {f : α → γ}
    (hf : ∀ a b, f a = f b → a = b) {dk : Dec α} {dk' : Dec γ}
    (hk : Takes f dk dk') : ∀ (n i : Nat) (m : SetVal α),
      Takes (exchangeItems f hf) (decSetLoop dk n i m) (decSetLoop dk' n i (exchangeItems f hf m))
  | 0, i, m => .pure' rfl
  | n + 1, i, m => by
    refine (hk.mapErr _ _).bind fun k => ?_
    have := decSetLoop_takes hf hk n (i + 1) ⟨setInsert k m.val, setInsert_nodup k m.val m.property⟩
    have e : exchangeItems f hf ⟨setInsert k m.val, setInsert_nodup k m.val m.property⟩
        = ⟨setInsert (f k) (exchangeItems f hf m).val,
          setInsert_nodup _ (exchangeItems f hf m).val (exchangeItems f hf m).property⟩ :=
      Subtype.ext (setInsert_exchange f hf k m.val)
    rw [e] at this
    exact this

/-- Numbers read are in range. -/
theorem decNum_lt {n : Nat} {i : Input} {x : Nat} {j : Input} (h : decNum n i = (.ok x, j)) :
    x < 256 ^ n := by
  replace h : Dec.bind (Dec.readInto n) (fun d => Dec.pure (fromLe d)) i = _ := h
  unfold Dec.bind Dec.readInto Input.readInto at h
  rw [List.length_replicate] at h
  by_cases hr : i.remaining < n
  · simp only [if_pos hr] at h
    nomatch h
  · simp only [if_neg hr] at h
    have e : fromLe ((i.buf.drop i.pos).take n) = x := by
      injection h with h1 h2
      injection h1
    have := fromLe_lt ((i.buf.drop i.pos).take n)
    rw [e] at this
    refine Nat.lt_of_lt_of_le this (Nat.pow_le_pow_right (by omega) ?_)
    rw [List.length_take]
    omega

theorem Takes.bindNum {γ δ : Type} {g : γ → δ} (n : Nat) {k : Nat → Dec γ} {k' : Nat → Dec δ}
    (h : ∀ x, x < 256 ^ n → Takes g (k x) (k' x)) : Takes g (decNum n >>= k) (decNum n >>= k') :=
  (Takes.refl (decNum n)).bind_of (p := fun x => x < 256 ^ n) (fun _ _ _ => decNum_lt) h

/-- `u8::decode` as a bit pattern. -/
def decOctet : Dec (BitVec 8) := (Ty.num (.int .u8)).decode

theorem decOctet_short (buf : List Byte) (pos : Nat) (h : buf.length - pos < 1) :
    decOctet ⟨buf, pos⟩ = (.panic .shortInput, ⟨buf, pos⟩) := by
  show Dec.bind (Dec.bind (Dec.readInto 1) _) _ _ = _
  unfold Dec.bind Dec.readInto Input.readInto
  rw [List.length_replicate]
  have : (⟨buf, pos⟩ : Input).remaining < 1 := h
  simp only [if_pos this]
  rfl

theorem decOctet_read (buf : List Byte) (pos : Nat) (b : Byte) (r : List Byte)
    (hb : buf.drop pos = b :: r) : decOctet ⟨buf, pos⟩ = (.ok b.toBitVec, ⟨buf, pos + 1⟩) := by
  have hl := congrArg List.length hb
  rw [List.length_drop, List.length_cons] at hl
  show Dec.bind (Dec.bind (Dec.readInto 1) (fun d => Dec.pure (fromLe d)))
    (fun x => Dec.pure (BitVec.ofNat 8 x)) _ = _
  unfold Dec.bind Dec.readInto Input.readInto
  rw [List.length_replicate]
  have : ¬ (⟨buf, pos⟩ : Input).remaining < 1 := by
    show ¬ buf.length - pos < 1
    omega
  simp only [if_neg this, hb]
  show (Res.ok (BitVec.ofNat 8 (b.toNat + 256 * 0)), _) = _
  rw [Nat.mul_zero, Nat.add_zero]
  have e : BitVec.ofNat 8 b.toNat = b.toBitVec := by simp
  rw [e]

/-- Two ways to read octets. -/
theorem items_octets : ∀ (n k : Nat) (buf : List Byte) (pos : Nat),
    if buf.length - pos < n then ∃ p j, decItems decOctet n k ⟨buf, pos⟩ = (.panic p, j)
    else ∃ h, decItems decOctet n k ⟨buf, pos⟩
      = (.ok ⟨((buf.drop pos).take n).map (fun b => b.toBitVec), h⟩, ⟨buf, pos + n⟩)
  | 0, k, buf, pos => by
    rw [if_neg (by omega)]
    exact ⟨rfl, rfl⟩
  | n + 1, k, buf, pos => by
    have ih := items_octets n (k + 1) buf (pos + 1)
    by_cases h1 : buf.length - pos < 1
    · rw [if_pos (by omega)]
      refine ⟨.shortInput, ⟨buf, pos⟩, ?_⟩
      show Dec.bind (Dec.mapErr _ decOctet) _ _ = _
      unfold Dec.bind Dec.mapErr
      rw [decOctet_short buf pos h1]
      rfl
    · obtain ⟨b, hb⟩ : ∃ b, buf.drop pos = b :: buf.drop (pos + 1) := by
        refine ⟨buf[pos]'(by omega), ?_⟩
        rw [List.drop_eq_getElem_cons (by omega)]
      have hs : decItems decOctet (n + 1) k ⟨buf, pos⟩
          = Dec.bind (decItems decOctet n (k + 1))
              (fun vs => Dec.pure ⟨b.toBitVec :: vs.val, by rw [List.length_cons, vs.property]⟩)
              ⟨buf, pos + 1⟩ := by
        show Dec.bind (Dec.mapErr _ decOctet) _ _ = _
        conv => lhs; unfold Dec.bind Dec.mapErr
        rw [decOctet_read buf pos b _ hb]
        rfl
      rw [hs]
      by_cases h2 : buf.length - (pos + 1) < n
      · rw [if_pos h2] at ih
        rw [if_pos (by omega)]
        obtain ⟨p, j, ih⟩ := ih
        refine ⟨p, j, ?_⟩
        unfold Dec.bind
        rw [ih]
      · rw [if_neg h2] at ih
        rw [if_neg (by omega)]
        obtain ⟨hl, ih⟩ := ih
        have hl' : (((buf.drop pos).take (n + 1)).map (fun b => b.toBitVec)).length = n + 1 := by
          rw [List.length_map, List.length_take, List.length_drop]
          omega
        refine ⟨hl', ?_⟩
        unfold Dec.bind
        rw [ih]
        simp only [Dec.pure, hb, List.take_succ_cons, List.map_cons]
        rw [show pos + 1 + n = pos + (n + 1) by omega]

theorem read_eq (n : Nat) (buf : List Byte) (pos : Nat) : Dec.read n ⟨buf, pos⟩
    = if buf.length - pos < n then (.panic .shortInput, ⟨buf, pos⟩)
      else (.ok ((buf.drop pos).take n), ⟨buf, pos + n⟩) := by
  unfold Dec.read Input.read
  by_cases hn : buf.length - pos < n
  · simp only [if_pos hn]
  · simp only [if_neg hn]

theorem read_takes (n k : Nat) : Takes (fun d : List Byte => d.map (fun b => b.toBitVec)) (Dec.read n)
    (decItems decOctet n k >>= fun v => pure v.val) := by
  rintro ⟨buf, pos⟩
  have h := items_octets n k buf pos
  rw [read_eq]
  by_cases hn : buf.length - pos < n
  · rw [if_pos hn] at h
    rw [if_pos hn]
    obtain ⟨p, j, h⟩ := h
    refine ⟨p, j, ?_⟩
    show Dec.bind _ _ _ = _
    unfold Dec.bind
    rw [h]
  · rw [if_neg hn] at h
    rw [if_neg hn]
    obtain ⟨hl, h⟩ := h
    show Dec.bind _ _ _ = _
    unfold Dec.bind
    rw [h]
    rfl

/-- A text that is read as octets and then checked. -/
theorem text_takes {α : Type} (k : List Byte → Dec α) (f : α → List (Ty.num (.int .u8)).Val)
    (h : ∀ d, Takes f (k d) (pure (octets d))) :
    Takes f (decUsize >>= fun len => Dec.read len >>= k) (decSeq (Ty.num (.int .u8)).decode) := by
  refine (Takes.refl decUsize).bind fun len => ?_
  refine ((read_takes len 0).bind (k' := fun v => pure v) (fun d => h d)).congr (fun _ => rfl) ?_
  intro i
  show Dec.bind (decItems decOctet len 0) _ i = Dec.bind (Dec.bind (decItems decOctet len 0) _) _ i
  unfold Dec.bind
  cases decItems decOctet len 0 i with
  | mk r j => cases r <;> rfl

/-- The check of `String::decode`. -/
theorem strCheck_takes {β : Type} (f : {bs : List Byte // Utf8.valid bs = true} → β) (d : List Byte)
    (d' : Dec β) (h : ∀ hv, Takes f (pure ⟨d, hv⟩) d') :
    Takes f (match h : Utf8.check d with
      | none => pure ⟨d, by simp [Utf8.valid, h]⟩
      | some i =>
        match d[i]? with
        | some c => Dec.fail (.badItem (.utf8 c i))
        | none => Dec.panic .indexOutOfBounds) d' := by
  split
  · exact h _
  · rename_i i hc
    have hlt := Utf8.check_lt d i hc
    rw [List.getElem?_eq_getElem hlt]
    exact .fail _ _

theorem decSizedStr_takes (n : Nat) {β : Type}
    (f : {bs : List Byte // Utf8.valid bs = true ∧ bs.length ≤ n} → β) (d : List Byte)
    (d' : Dec β) (h : ∀ hv, Takes f (pure ⟨d, hv⟩) d') :
    Takes f (match sizedStrFromUtf8 n d with
      | some (.ok s) => pure s
      | some (.error e) => Dec.fail e
      | none => Dec.panic .indexOutOfBounds) d' := by
  unfold sizedStrFromUtf8
  by_cases hn : d.length > n
  · rw [dif_pos hn]
    exact .fail _ _
  · rw [dif_neg hn]
    split
    · rename_i s hs
      split at hs
      · rename_i hc
        have e : (⟨d, by simp [Utf8.valid, hc], by omega⟩ :
          {bs : List Byte // Utf8.valid bs = true ∧ bs.length ≤ n}) = s := by
          injection hs with hs
          injection hs
        rw [← e]
        exact h _
      · split at hs <;> nomatch hs
    · exact .fail _ _
    · rename_i hs
      split at hs
      · nomatch hs
      · rename_i i hc
        have hlt := Utf8.check_lt d i hc
        rw [List.getElem?_eq_getElem hlt] at hs
        nomatch hs

theorem strCheck_valid (d : List Byte) (hv : Utf8.valid d = true) : (match h : Utf8.check d with
      | none => pure ⟨d, by simp [Utf8.valid, h]⟩
      | some i =>
        match d[i]? with
        | some c => Dec.fail (.badItem (.utf8 c i))
        | none => Dec.panic .indexOutOfBounds : Dec {bs : List Byte // Utf8.valid bs = true})
    = pure ⟨d, hv⟩ := by
  split
  · rfl
  · rename_i i hc
    rw [Utf8.valid, hc] at hv
    nomatch hv

theorem sizedStr_valid (n : Nat) (d : List Byte) (hv : Utf8.valid d = true) (hn : d.length ≤ n) :
    (match sizedStrFromUtf8 n d with
      | some (.ok s) => pure s
      | some (.error e) => Dec.fail e
      | none => Dec.panic .indexOutOfBounds : Dec {bs : List Byte // Utf8.valid bs = true ∧ bs.length ≤ n})
    = pure ⟨d, hv, hn⟩ := by
  have e : sizedStrFromUtf8 n d = some (.ok ⟨d, hv, hn⟩) := by
    unfold sizedStrFromUtf8
    rw [dif_neg (by omega)]
    split
    · rfl
    · rename_i i hc
      rw [Utf8.valid, hc] at hv
      nomatch hv
  rw [e]

theorem longer_takes (n m : Nat) (h : n ≤ m) : Takes (fun v => ⟨v.1, v.2.1, Nat.le_trans v.2.2 h⟩)
    (decSizedStr n) (decSizedStr m) := by
  refine (Takes.refl decUsize).bind fun len => (Takes.refl (Dec.read len)).bind fun d => ?_
  refine decSizedStr_takes n _ d _ fun hv => ?_
  have e := sizedStr_valid m d hv.1 (Nat.le_trans hv.2 h)
  exact (Takes.pure' rfl).congr (fun _ => rfl) (fun i => congrFun e i)

theorem unsized_takes (n : Nat) : Takes (fun v => ⟨v.1, v.2.1⟩) (decSizedStr n) decString := by
  refine (Takes.refl decUsize).bind fun len => (Takes.refl (Dec.read len)).bind fun d => ?_
  refine decSizedStr_takes n _ d _ fun hv => ?_
  have e := strCheck_valid d hv.1
  exact (Takes.pure' rfl).congr (fun _ => rfl) (fun i => congrFun e i)

theorem decString_takes : Takes (fun v => octets v.1) decString (decSeq (Ty.num (.int .u8)).decode) :=
  text_takes _ _ fun d => strCheck_takes _ d _ fun hv => .pure' rfl

theorem decCString_takes : Takes (fun v => octets v.1) decCString (decSeq (Ty.num (.int .u8)).decode) := by
  refine text_takes _ _ fun d => ?_
  split
  · exact .pure' rfl
  · exact .fail _ _

/-! Numbers -/

theorem width_takes (n n' : Nat) (h : n = n') :
    Takes (fun v : BitVec (8 * n) => BitVec.cast (congrArg (8 * ·) h) v)
      (decNum n >>= fun x => pure (BitVec.ofNat (8 * n) x))
      (decNum n' >>= fun x => pure (BitVec.ofNat (8 * n') x)) := by
  subst h
  exact (Takes.refl _).bind fun x => .pure' rfl

theorem ofInt_ofBits (s : Bool) (n x : Nat) : BitVec.ofInt (8 * n) (ofBits s n x) = BitVec.ofNat (8 * n) x := by
  apply BitVec.eq_of_toNat_eq
  rw [ofInt_toNat, BitVec.toNat_ofNat]
  have h : (ofBits s n x) % (2 : Int) ^ (8 * n) = (x : Int) % (2 : Int) ^ (8 * n) := by
    unfold ofBits
    split
    · rw [Int.sub_emod_right]
    · rfl
  rw [h]
  have : ((x : Int) % (2 : Int) ^ (8 * n)) = ((x % 2 ^ (8 * n) : Nat) : Int) := by
    simp
  rw [this]
  rfl

theorem toInt_ofNat (x : Nat) (h : x < 256 ^ 2) : (BitVec.ofNat 16 x).toInt = ofBits true 2 x := by
  rw [BitVec.toInt_eq_toNat_cond, BitVec.toNat_ofNat, Nat.mod_eq_of_lt h]
  unfold ofBits
  simp only [true_and]
  by_cases hx : 2 ^ (8 * 2 - 1) ≤ x
  · rw [if_neg (by omega), if_pos hx]
    rfl
  · rw [if_pos (by omega), if_neg hx]

theorem decNum_pure (n : Nat) (i : Input) : decNum n i = (decNum n >>= fun x => pure x) i := by
  show _ = Dec.bind (decNum n) Dec.pure i
  unfold Dec.bind
  cases decNum n i with
  | mk r j => cases r <;> rfl

theorem usizeNum_takes : Takes (fun v => BitVec.ofNat 16 v) decUsize
    (decNum 2 >>= fun x => pure (BitVec.ofNat 16 x)) :=
  (Takes.refl (decNum 2)).map_right (fun v => BitVec.ofNat 16 v)

theorem numUsize_takes : Takes (fun v => v.toNat) (decNum 2 >>= fun x => pure (BitVec.ofNat 16 x))
    decUsize := by
  refine (Takes.bindNum 2 (k' := fun x => pure x) fun x hx => .pure' ?_).congr (fun _ => rfl) (decNum_pure 2)
  rw [BitVec.toNat_ofNat]
  exact Nat.mod_eq_of_lt hx

theorem isizeNum_takes : Takes (fun v => BitVec.ofInt 16 v) decIsize
    (decNum 2 >>= fun x => pure (BitVec.ofNat 16 x)) :=
  (Takes.refl (decNum 2)).bind fun x => .pure' (ofInt_ofBits true 2 x)

theorem numIsize_takes : Takes (fun v => v.toInt) (decNum 2 >>= fun x => pure (BitVec.ofNat 16 x))
    decIsize :=
  Takes.bindNum 2 fun x hx => .pure' (toInt_ofNat x hx)

/-- Wherever a number is read and is not zero, it is in range. -/
theorem nonZero_takes {β : Type} (r : Repr) (f : {x : Int // r.InRange x ∧ x ≠ 0} → β) (x : Int)
    (hr : r.InRange x) (d' : Dec β) (h : ∀ h, Takes f (pure ⟨x, h⟩) d') :
    Takes f (if x = 0 then Dec.fail .nonZero
      else if h : r.InRange x ∧ x ≠ 0 then pure ⟨x, h⟩ else Dec.panic .unreachable) d' := by
  by_cases hx : x = 0
  · rw [if_pos hx]
    exact .fail _ _
  · rw [if_neg hx, dif_pos ⟨hr, hx⟩]
    exact h _

theorem zeroed_takes (k : IntKind) : Takes (fun v => BitVec.ofInt (8 * k.bytes) v.1) (decNonZero (.int k))
    (decNum k.bytes >>= fun x => pure (BitVec.ofNat (8 * k.bytes) x)) := by
  refine Takes.congr (Takes.bindNum k.bytes fun x hx => ?_) (Dec.bind_assoc' _ _ _) (fun _ => rfl)
  exact nonZero_takes (.int k) _ _ (ofBits_range k.signed k.bytes x k.bytes_pos hx) _
    fun h => .pure' (ofInt_ofBits k.signed k.bytes x)

theorem zeroedUsize_takes : Takes (fun v => v.1.toNat) (decNonZero .usize) decUsize := by
  refine Takes.congr (Takes.bindNum 2 (k' := fun x => pure x) fun x hx => ?_) (Dec.bind_assoc' _ _ _)
    (decNum_pure 2)
  exact nonZero_takes .usize _ (x : Int) (Int.natCast_nonneg x) _ fun h => .pure' rfl

theorem zeroedIsize_takes : Takes (fun v => v.1) (decNonZero .isize) decIsize := by
  refine Takes.congr (Takes.bindNum 2 fun x hx => ?_) (Dec.bind_assoc' _ _ _) (fun _ => rfl)
  exact nonZero_takes .isize _ (ofBits true 2 x) trivial _ fun h => .pure' rfl

theorem fromBe_toBe (n x : Nat) (h : x < 256 ^ n) : fromBe (toBe n x) = x := by
  rw [fromBe_eq, toBe, List.reverse_reverse, fromLe_toLe, Nat.mod_eq_of_lt h]

theorem ipv4_takes : Takes (fun v => BitVec.ofNat 32 (fromBe v.1)) decIpv4
    (decNum 4 >>= fun x => pure (BitVec.ofNat 32 x)) :=
  Takes.bindNum 4 fun x hx => .pure' (congrArg (BitVec.ofNat 32) (fromBe_toBe 4 x hx))

theorem ipv6_takes : Takes (fun v => BitVec.ofNat 128 (fromBe v.1)) decIpv6
    (decNum 16 >>= fun x => pure (BitVec.ofNat 128 x)) :=
  Takes.bindNum 16 fun x hx => .pure' (congrArg (BitVec.ofNat 128) (fromBe_toBe 16 x hx))

/-! Fields and variants -/

theorem decItems_times (t : Ty) (g : DecErr → DecErr) : ∀ (n i : Nat),
    Takes (timesVals t n) (decItems t.decode n i) ((times t n).decode g)
  | 0, i => .pure' rfl
  | n + 1, i =>
    ((Takes.refl t.decode).mapErr _ _).bind fun a => (decItems_times t g n (i + 1)).bind fun v => .pure' rfl

theorem decFields_self : ∀ (fs : Fields) (g g' : DecErr → DecErr), Takes id (fs.decode g) (fs.decode g')
  | .nil, _, _ => .refl _
  | .cons t fs, g, g' =>
    ((Takes.refl _).mapErr _ _).bind fun a => (decFields_self fs g g').bind fun v => .pure' rfl

theorem decVariants_numbered {us : Variants} {before : Option Nat} {n : Nat} {gs : Fields}
    {f : gs.Val → us.Val} (h : Numbered us before n gs f) (i : Input) :
    us.decode before n i = (gs.decode (fun e => .badField e.toGeneric) >>= fun v => pure (f v)) i := by
  induction h generalizing i with
  | here d gs us before =>
    unfold Variants.decode
    rw [if_pos (by rw [numbered_eq])]
  | there d fs before hn h ih =>
    rename_i us m gs f
    unfold Variants.decode
    rw [numbered_eq] at ih hn
    rw [if_neg (by omega)]
    show Dec.bind (us.decode (some (nextDisc before d)) m) (fun v => Dec.pure (Sum.inr v)) i
      = Dec.bind (gs.decode _) (fun v => Dec.pure (Sum.inr (f v))) i
    have ih : us.decode (some (nextDisc before d)) m i
      = Dec.bind (gs.decode (fun e => .badField e.toGeneric)) (fun v => Dec.pure (f v)) i := ih i
    unfold Dec.bind at ih ⊢
    rw [ih]
    cases gs.decode (fun e => .badField e.toGeneric) i with
    | mk r j => cases r <;> rfl

theorem one_takes {α β : Type} {f : α → β} (t : Ty) (g : DecErr → DecErr) {d : Dec t.Val}
    (hd : Takes id d t.decode) {k : t.Val → Dec α} {k' : (Fields.cons t .nil).Val → Dec β}
    (h : ∀ a, Takes f (k a) (k' (a, ()))) :
    Takes f (d >>= k) ((Fields.cons t .nil).decode g >>= k') := by
  refine Takes.congr ?_ (fun _ => rfl) (Dec.bind_assoc' _ _ _)
  exact (hd.mapErr_right g).bind fun a => h a

theorem cons_takes {α β γ : Type} (t : Ty) (fs : Fields) (g : DecErr → DecErr) {d : Dec γ}
    {e : γ → t.Val} (hd : Takes e d t.decode) {f : α → β} {k : γ → Dec α}
    {k' : (Fields.cons t fs).Val → Dec β}
    (h : ∀ a, Takes f (k a) (fs.decode g >>= fun vs => k' (e a, vs))) :
    Takes f (d >>= k) ((Fields.cons t fs).decode g >>= k') := by
  refine Takes.congr ?_ (fun _ => rfl) (Dec.bind_assoc' _ _ _)
  exact (hd.mapErr_right g).bind fun a => (h a).congr (fun _ => rfl) (Dec.bind_assoc' _ _ _)

theorem bound_takes (t : Ty) : Takes (fun v => match v with
      | .included a => (.inl (a, ()) : (boundEnum t).Val) | .excluded a => .inr (.inl (a, ()))
      | .unbounded => .inr (.inr (.inl ())))
    (decBound t.decode) (boundEnum t).decode := by
  refine Takes.congr (Takes.bindNum 1 fun x hx => ?_) (fun _ => rfl) (Dec.bind_assoc' _ _ _)
  show Takes _ _ (Variants.decode _ none (x : Int))
  by_cases h0 : x = 0
  · subst h0
    rw [if_pos rfl]
    refine Takes.congr ?_ (fun _ => rfl) (decVariants_numbered (.here none _ _ none))
    exact one_takes t _ ((Takes.refl _).mapErr_left _) fun a => .pure' rfl
  · rw [if_neg h0]
    by_cases h1 : x = 1
    · subst h1
      rw [if_pos rfl]
      refine Takes.congr ?_ (fun _ => rfl)
        (decVariants_numbered (.there none _ none (by decide) (.here none _ _ _)))
      exact one_takes t _ ((Takes.refl _).mapErr_left _) fun a => .pure' rfl
    · rw [if_neg h1]
      by_cases h2 : x = 2
      · subst h2
        rw [if_pos rfl]
        refine Takes.congr ?_ (fun _ => rfl) (decVariants_numbered
          (.there none _ none (by decide) (.there none _ _ (by decide) (.here none _ _ _))))
        exact .pure' rfl
      · rw [if_neg h2]
        exact .fail _ _

theorem version_takes {α : Type} (a b : Ty) (g : α → (versionEnum a b).Val) (m4 : a.Val → α)
    (m6 : b.Val → α) (h4 : ∀ x, g (m4 x) = .inl (x, ())) (h6 : ∀ x, g (m6 x) = .inr (.inl (x, ()))) :
    Takes g (do
      let discriminant ← decU8
      if discriminant = 4 then do
        let a ← a.decode
        pure (m4 a)
      else if discriminant = 6 then do
        let a ← b.decode
        pure (m6 a)
      else Dec.fail (.unassigned discriminant)) (versionEnum a b).decode := by
  refine Takes.congr (Takes.bindNum 1 fun x hx => ?_) (fun _ => rfl) (Dec.bind_assoc' _ _ _)
  show Takes _ _ (Variants.decode _ none (x : Int))
  by_cases h0 : x = 4
  · subst h0
    rw [if_pos rfl]
    refine Takes.congr ?_ (fun _ => rfl) (decVariants_numbered (.here (some 4) _ _ none))
    exact one_takes a _ (.refl _) fun x => .pure' (h4 x)
  · rw [if_neg h0]
    by_cases h1 : x = 6
    · subst h1
      rw [if_pos rfl]
      refine Takes.congr ?_ (fun _ => rfl)
        (decVariants_numbered (.there (some 4) _ none (by decide) (.here (some 6) _ _ _)))
      exact one_takes b _ (.refl _) fun x => .pure' (h6 x)
    · rw [if_neg h1]
      exact .fail _ _

theorem port_takes : Takes (fun v => BitVec.ofNat 16 v) (decNum 2) (Ty.num (.int .u16)).decode :=
  (Takes.refl (decNum 2)).map_right (fun v => BitVec.ofNat 16 v)

theorem flow_takes : Takes (fun v => BitVec.ofNat 32 v) (decNum 4) (Ty.num (.int .u32)).decode :=
  (Takes.refl (decNum 4)).map_right (fun v => BitVec.ofNat 32 v)

mutual

theorem Recast.takes : {x : Bool} → {t u : Ty} → {f : t.Val → u.Val} → Recast x t u f → x = true →
    Takes f t.decode u.decode
  | _, _, _, _, .same _ _, hx => .refl _
  | _, _, _, _, .trans h h', hx => (Recast.takes h hx).trans (Recast.takes h' hx)
  | _, _, _, _, .unwrap _ _ t, hx => (.refl t.decode : Takes _ t.decode t.decode)
  | _, _, _, _, .rewrap _ _ t, hx => (.refl t.decode : Takes _ t.decode t.decode)
  | _, _, _, _, .unlock _ _ t, hx => Takes.map_left (f := fun v : LockVal t.Val => v.val) (.refl t.decode)
  | _, _, _, _, .relock _ _ t, hx => (Takes.refl t.decode).map_right (fun v => (⟨false, v⟩ : LockVal t.Val))
  | _, _, _, _, .unborrow _ t, hx => Takes.map_left (f := fun v : RefCellVal t.Val => v.val) (.refl t.decode)
  | _, _, _, _, .reborrow _ t, hx => (Takes.refl t.decode).map_right (fun v => (⟨false, v⟩ : RefCellVal t.Val))
  | _, _, _, _, .seqKind _ k k' t, hx => (.refl (decSeq t.decode) : Takes _ (decSeq t.decode) (decSeq t.decode))
  | _, _, _, _, .strKind _ _ _, hx => Takes.refl decString
  | _, _, _, _, .cStrKind _ _ _, hx => Takes.refl decCString
  | _, _, _, _, .longer _ n m h, hx => longer_takes n m h
  | _, _, _, _, .unsized _ n _, hx => unsized_takes n
  | _, _, _, _, .textOctets _ _ k, hx => decString_takes
  | _, _, _, _, .cTextOctets _ _ k, hx => decCString_takes
  | _, _, _, _, .width _ k k' h, hx => width_takes k.bytes k'.bytes h
  | _, _, _, _, .usizeNum _, hx => usizeNum_takes
  | _, _, _, _, .numUsize _, hx => numUsize_takes
  | _, _, _, _, .isizeNum _, hx => isizeNum_takes
  | _, _, _, _, .numIsize _, hx => numIsize_takes
  | _, _, _, _, .zeroed _ k, hx => zeroed_takes k
  | _, _, _, _, .zeroedUsize _, hx => zeroedUsize_takes
  | _, _, _, _, .zeroedIsize _, hx => zeroedIsize_takes
  | _, _, _, _, .unitKind _ _ _, hx => .pure' rfl
  | _, _, _, _, .unitStruct _ _, hx => .pure' rfl
  | _, _, _, _, .tupleStruct _ fs, hx => decFields_self fs _ _
  | _, _, _, _, .structTuple _ fs, hx => decFields_self fs _ _
  | _, _, _, _, .newtype _ t, hx =>
    ((Takes.refl t.decode).mapErr_right _).map_right (fun v => ((v, ()) : t.Val × Unit))
  | _, _, _, _, .oldtype _ t, hx =>
    Takes.map_left (f := fun v : t.Val × Unit => v.1) ((Takes.refl t.decode).mapErr_left _)
  | _, _, _, _, .arrayFields _ t n, hx => decItems_times t _ n 0
  | _, _, _, _, .rangeFields _ t, hx =>
    ((Takes.refl t.decode).mapErr_right _).bind fun a => one_takes t _ (.refl _) fun b => .pure' rfl
  | _, _, _, _, .fieldsRange _ t, hx =>
    ((Takes.refl t.decode).mapErr_left _).bind fun a => Takes.congr
      (((Takes.refl t.decode).mapErr_left DecErr.toGeneric).bind fun b => .pure' rfl)
      (Dec.bind_assoc' _ _ _) (fun _ => rfl)
  | _, _, _, _, .inclusiveFields _ t, hx =>
    ((Takes.refl t.decode).mapErr_right _).bind fun a => one_takes t _ (.refl _) fun b => .pure' rfl
  | _, _, _, _, .fieldsInclusive _ t, hx =>
    ((Takes.refl t.decode).mapErr_left _).bind fun a => Takes.congr
      (((Takes.refl t.decode).mapErr_left DecErr.toGeneric).bind fun b => .pure' rfl)
      (Dec.bind_assoc' _ _ _) (fun _ => rfl)
  | _, _, _, _, .boundVariants _ t, hx => bound_takes t
  | _, _, _, _, .ipv4Num _, hx => ipv4_takes
  | _, _, _, _, .ipv6Num _, hx => ipv6_takes
  | _, _, _, _, .ipVariants _, hx => by
    exact version_takes .ipv4 .ipv6 _ IpAddrVal.v4 IpAddrVal.v6 (fun _ => rfl) (fun _ => rfl)
  | _, _, _, _, .socketV4Fields _, hx =>
    ((Takes.refl decIpv4).mapErr_right _).bind fun a => cons_takes _ .nil _ port_takes fun b => .pure' rfl
  | _, _, _, _, .socketV6Fields _, hx =>
    ((Takes.refl decIpv6).mapErr_right _).bind fun a =>
      cons_takes _ _ _ port_takes fun b => cons_takes _ _ _ flow_takes fun c =>
        cons_takes _ .nil _ flow_takes fun d => .pure' rfl
  | _, _, _, _, .socketVariants _, hx => by
    exact version_takes .socketAddrV4 .socketAddrV6 _ SocketAddrVal.v4 SocketAddrVal.v6
      (fun _ => rfl) (fun _ => rfl)
  | _, _, _, _, .array n h, hx => decItems_takes (Recast.takes h hx) n 0
  | _, _, _, _, .seq k h, hx =>
    (Takes.refl decUsize).bind fun len => (decItems_takes (Recast.takes h hx) len 0).bind fun v => .pure' rfl
  | _, _, _, _, .hashMap (k := k) (l := l) hf h h', hx => by
    letI := k.decEq
    letI := l.decEq
    exact (Takes.refl decUsize).bind fun len =>
      decMapLoop_takes hf (Recast.takes h hx) (Recast.takes h' hx) len 0 ⟨[], List.nodup_nil⟩
  | _, _, _, _, .hashSet (k := k) (l := l) hf h, hx => by
    letI := k.decEq
    letI := l.decEq
    exact (Takes.refl decUsize).bind fun len =>
      decSetLoop_takes hf (Recast.takes h hx) len 0 ⟨[], List.nodup_nil⟩
  | _, _, _, _, .option h, hx => by
    refine (Takes.refl decBool).bind fun sign => ?_
    cases sign with
    | false => exact .pure' rfl
    | true => exact (Recast.takes h hx).bind fun v => .pure' rfl
  | _, _, _, _, .result h h', hx => by
    refine (Takes.refl decBool).bind fun sign => ?_
    cases sign with
    | false => exact ((Recast.takes h hx).mapErr _ _).bind fun v => .pure' rfl
    | true => exact ((Recast.takes h' hx).mapErr _ _).bind fun v => .pure' rfl
  | _, _, _, _, .bound h, hx => by
    refine (Takes.refl decU8).bind fun d => ?_
    simp only [id]
    split
    · exact ((Recast.takes h hx).mapErr _ _).bind fun v => .pure' rfl
    · split
      · exact ((Recast.takes h hx).mapErr _ _).bind fun v => .pure' rfl
      · split
        · exact .pure' rfl
        · exact .fail _ _
  | _, _, _, _, .range h, hx => (Recast.takes h hx).bind fun a => (Recast.takes h hx).bind fun b => .pure' rfl
  | _, _, _, _, .rangeInclusive h, hx => (Recast.takes h hx).bind fun a => (Recast.takes h hx).bind fun b => .pure' rfl
  | _, _, _, _, .lock _ h, hx => (Recast.takes h hx).bind fun a => .pure' rfl
  | _, _, _, _, .refCell h, hx => (Recast.takes h hx).bind fun a => .pure' rfl
  | _, _, _, _, .sizedSlice n h, hx => by
    refine (Takes.refl decUsize).bind fun len => ?_
    simp only [id]
    split
    · exact .fail _ _
    · refine (decItems_takes (Recast.takes h hx) n 0).bind fun v => .pure' ?_
      exact Subtype.ext List.map_take
  | _, _, _, _, .grown _ _ _, hx => nomatch hx
  | _, _, _, _, .boolNum, hx => nomatch hx
  | _, _, _, _, .charNum, hx => nomatch hx
  | _, _, _, _, .optionVariants _, hx => nomatch hx
  | _, _, _, _, .resultVariants _ _, hx => nomatch hx
  | _, _, _, _, .durationFields, hx => nomatch hx
  | _, _, _, _, .struct h, hx => RecastFields.takes h hx _ _
  | _, _, _, _, .enum r h, hx => (Takes.refl (decRepr r)).bind fun d => RecastVariants.takes h hx d

theorem RecastFields.takes : {x : Bool} → {fs gs : Fields} → {f : fs.Val → gs.Val} →
    RecastFields x fs gs f → x = true → (g g' : DecErr → DecErr) → Takes f (fs.decode g) (gs.decode g')
  | _, _, _, _, .nil _, hx, _, _ => .refl _
  | _, _, _, _, .cons h hs, hx, g, g' =>
    ((Recast.takes h hx).mapErr g g').bind fun _ => (RecastFields.takes hs hx g g').bind fun _ => .pure' rfl
  | _, _, _, _, .dissolve es hs, hx, g, g' => by
    refine Takes.congr ?_ (fun _ => rfl) (Fields.decode_append es _ g')
    exact ((decFields_self es _ g').mapErr_left g).bind fun v =>
      (RecastFields.takes hs hx g g').bind fun w => .pure' rfl

theorem RecastVariants.takes : {x : Bool} → {ws vs : Variants} → {before : Option Nat} →
    {f : vs.Val → ws.Val} → RecastVariants x ws vs before f → x = true → (x : Int) → Takes f (vs.decode before x) (ws.decode none x)
  | _, _, _, _, _, .nil _ _ _ _, hx, x => .fail _ _
  | _, _, _, _, _, .cons d before h hi hs, hx, x => by
    have hn := decVariants_numbered hi
    have ih := RecastVariants.takes hs hx x
    rw [numbered_eq] at hn ih
    rw [Variants.decode]
    split
    · rename_i hy
      subst hy
      refine Takes.congr ?_ (fun _ => rfl) hn
      exact (RecastFields.takes h hx _ _).bind fun v => .pure' rfl
    · exact Takes.map_left ih

end

end Oct
