import Verif.Proofs.Canonical
import Verif.Proofs.MaxSize
import Verif.Spec.Reach
/- Bounds on what decoding consumes and produces. -/
namespace Oct
open Spec
set_option linter.unusedVariables false
variable {α β : Type}

open Consumes

/-- After a length, which is at most 65535. -/
theorem consumes_len {f : Nat → Dec β} {k : Nat} (hf : ∀ n ≤ 65535, Consumes true (f n) k) :
    Consumes true (decUsize >>= f) (2 + k) := by
  intro i hi
  have h := decUsize_consumes (all := true) i (.inl rfl)
  show (Dec.bind decUsize f i).2.pos ≤ _
  unfold Dec.bind
  cases hq : decUsize i with
  | mk q i1 =>
    rw [hq] at h
    cases q with
    | ok n =>
      obtain ⟨_, _, hn, _⟩ := ((decUsize_parses i i1).1 n).mp hq
      have h2 := hf n hn i1 (.inl rfl)
      have h3 : i1.pos ≤ i.pos + 2 := h
      show (f n i1).2.pos ≤ _
      omega
    | err e => exact Nat.le_trans h (by omega)
    | panic p => exact Nat.le_trans h (by omega)
    | ub u => exact Nat.le_trans h (by omega)

theorem decSeq_consumes {dec : Dec α} {k : Nat} (h : Consumes true dec k) :
    Consumes true (decSeq dec) (2 + 65535 * k) :=
  consumes_len fun n hn => (bind_pure (decItems_consumes h n 0)).mono (by
    rw [Nat.mul_comm]; exact Nat.mul_le_mul_right k hn)

theorem decMapLoop_consumes [DecidableEq α] {decK : Dec α} {decV : Dec β} {k v : Nat}
    (hk : Consumes true decK k) (hv : Consumes true decV v) : (n i : Nat) → (m : MapVal α β) →
    Consumes true (decMapLoop decK decV n i m) (n * (k + v))
  | 0, i, m => Consumes.pure _ _
  | n + 1, i, m => by
    refine (bind (hk.mapErr _) fun a => bind (hv.mapErr _) fun b =>
      decMapLoop_consumes hk hv n (i + 1) _).mono ?_
    rw [Nat.succ_mul]; omega

theorem decSetLoop_consumes [DecidableEq α] {decK : Dec α} {k : Nat}
    (hk : Consumes true decK k) : (n i : Nat) → (m : SetVal α) →
    Consumes true (decSetLoop decK n i m) (n * k)
  | 0, i, m => Consumes.pure _ _
  | n + 1, i, m => by
    refine (bind (hk.mapErr _) fun a => decSetLoop_consumes hk n (i + 1) _).mono ?_
    rw [Nat.succ_mul]; omega

theorem decText_consumes {f : List Byte → Dec α} (hf : ∀ d, Consumes true (f d) 0) :
    Consumes true (decUsize >>= fun len => Dec.read len >>= f) (2 + 65535) :=
  consumes_len fun n hn => (bind (Consumes.read n) hf).mono hn

theorem strOf_consumes (d : List Byte) : Consumes true (strOf d) 0 := by
  cases hc : Utf8.check d with
  | none => rw [strOf_valid d (by simp [Utf8.valid, hc])]; exact Consumes.pure _ _
  | some j =>
    obtain ⟨c, hj, hf⟩ := strOf_invalid d j hc
    rw [hf]; exact Consumes.fail _ _

theorem sizedStrOf_consumes (n : Nat) (d : List Byte) :
    Consumes true (match sizedStrFromUtf8 n d with
      | some (.ok s) => (Pure.pure s : Dec _)
      | some (.error e) => Dec.fail e
      | none => Dec.panic .indexOutOfBounds) 0 := by
  cases h : sizedStrFromUtf8 n d with
  | none => exact Consumes.panic _ _
  | some q =>
    cases q with
    | ok s => exact Consumes.pure _ _
    | error e => exact Consumes.fail _ _

mutual

theorem Ty.decode_reach : (t : Ty) → Consumes true t.decode (reach t)
  | .num k => bind_pure (decNum_consumes _)
  | .bool => decBool_consumes
  | .char => decChar_consumes
  | .usize => decUsize_consumes
  | .isize => decIsize_consumes
  | .nonZero r => decNonZero_consumes r
  | .unit _ => Consumes.pure _ _
  | .infallible => Consumes.panic _ _
  | .wrap _ t => Ty.decode_reach t
  | .array t n => (decItems_consumes (Ty.decode_reach t) n 0).mono (by
      rw [reach, Nat.mul_comm]; exact Nat.le_refl _)
  | .seq _ t => decSeq_consumes (Ty.decode_reach t)
  | .hashMap k v => consumes_len fun n hn =>
      (@decMapLoop_consumes _ _ k.decEq _ _ _ _ (Ty.decode_reach k) (Ty.decode_reach v) n 0 _).mono
        (Nat.mul_le_mul_right _ hn)
  | .hashSet k => consumes_len fun n hn =>
      (@decSetLoop_consumes _ k.decEq _ _ (Ty.decode_reach k) n 0 _).mono (Nat.mul_le_mul_right _ hn)
  | .option t => bind decBool_consumes fun b =>
      Consumes.ite (fun _ => bind_pure (Ty.decode_reach t)) (fun _ => Consumes.pure _ _)
  | .result t e => bind decBool_consumes fun b => Consumes.ite
        (fun _ => (bind_pure ((Ty.decode_reach e).mapErr _)).mono (by omega))
        (fun _ => (bind_pure ((Ty.decode_reach t).mapErr _)).mono (by omega))
  | .bound t => bind decU8_consumes fun b =>
      Consumes.ite (fun _ => bind_pure ((Ty.decode_reach t).mapErr _))
        (fun _ => Consumes.ite (fun _ => bind_pure ((Ty.decode_reach t).mapErr _))
          (fun _ => Consumes.ite (fun _ => Consumes.pure _ _) (fun _ => Consumes.fail _ _)))
  | .range t => (bind (Ty.decode_reach t) fun _ =>
      bind_pure (Ty.decode_reach t)).mono (by simp only [reach]; omega)
  | .rangeInclusive t => (bind (Ty.decode_reach t) fun _ =>
      bind_pure (Ty.decode_reach t)).mono (by simp only [reach]; omega)
  | .lock _ t => bind_pure (Ty.decode_reach t)
  | .refCell t => bind_pure (Ty.decode_reach t)
  | .duration => decDuration_consumes
  | .systemTime p => decSystemTime_consumes p
  | .ipv4 => decIpv4_consumes
  | .ipv6 => decIpv6_consumes
  | .ipAddr => decIpAddr_consumes
  | .socketAddrV4 => decSocketAddrV4_consumes
  | .socketAddrV6 => decSocketAddrV6_consumes
  | .socketAddr => decSocketAddr_consumes
  | .str _ => decText_consumes strOf_consumes
  | .cStr _ => decText_consumes fun d =>
      Consumes.dite (fun _ => Consumes.pure _ _) (fun _ => Consumes.fail _ _)
  | .sizedStr n => decText_consumes (sizedStrOf_consumes n)
  | .sizedSlice t n => consumes_len fun len _ => Consumes.ite (fun _ => Consumes.fail _ _)
      (fun _ => (bind_pure (decItems_consumes (Ty.decode_reach t) n 0)).mono (by
        rw [Nat.mul_comm]; exact Nat.le_refl _))
  | .tuple fs => Fields.decode_reach fs _
  | .struct fs => Fields.decode_reach fs _
  | .enum r vs => bind (decRepr_consumes r) fun x => Variants.decode_reach vs none x

theorem Fields.decode_reach : (fs : Fields) → (g : DecErr → DecErr) →
    Consumes true (fs.decode g) (reachFields fs)
  | .nil, _ => Consumes.pure _ _
  | .cons t fs, g => bind ((Ty.decode_reach t).mapErr g) fun _ => bind_pure (Fields.decode_reach fs g)

theorem Variants.decode_reach : (vs : Variants) → (prev : Option Nat) → (x : Int) →
    Consumes true (vs.decode prev x) (reachVariants vs)
  | .nil, _, _ => Consumes.fail _ _
  | .cons d fs vs, prev, x => Consumes.ite
      (fun _ => (bind_pure (Fields.decode_reach fs _)).mono (Nat.le_max_left _ _))
      (fun _ => (bind_pure (Variants.decode_reach vs _ x)).mono (Nat.le_max_right _ _))

end

/-! Elements. -/

theorem sum_le_of_subset {f : α → Nat} : (m l : List α) → m.Nodup → m ⊆ l →
    (m.map f).sum ≤ (l.map f).sum
  | [], l, _, _ => Nat.zero_le _
  | a :: m, l, hn, hs => by
    obtain ⟨l1, l2, rfl⟩ := List.append_of_mem (hs List.mem_cons_self)
    rw [List.nodup_cons] at hn
    have ih := sum_le_of_subset (f := f) m (l1 ++ l2) hn.2 (by
      intro x hx
      have := hs (List.mem_cons_of_mem a hx)
      simp only [List.mem_append, List.mem_cons] at this ⊢
      rcases this with h | rfl | h
      · exact .inl h
      · exact absurd hx hn.1
      · exact .inr h)
    simp only [List.map_append, List.map_cons, List.sum_append, List.sum_cons] at ih ⊢
    omega

theorem length_le_of_subset (m l : List α) (hn : m.Nodup) (hs : m ⊆ l) : m.length ≤ l.length := by
  have := sum_le_of_subset (f := fun _ => 1) m l hn hs
  simpa [List.map_const'] using this

theorem mapOf_subset [DecidableEq α] {l m : List (α × β)} (h : MapOf l m) : m ⊆ l := by
  intro p hp
  obtain ⟨l1, l2, rfl, _⟩ := h.2 p hp
  simp

theorem mapOf_nodup [DecidableEq α] {l m : List (α × β)} (h : MapOf l m) : m.Nodup := by
  have h1 : (m.map Prod.fst).Nodup := by rw [h.1]; exact firsts_nodup _
  exact List.Pairwise.of_map Prod.fst (fun a b hab (e : a = b) => hab (congrArg _ e)) h1

theorem each_sum_le {A : List Byte → α → Prop} {f : α → Nat} {k : Nat}
    (h : ∀ b a, A b a → f a ≤ k * b.length) {bs : List Byte} {l : List α} (hE : Each A bs l) :
    (l.map f).sum ≤ k * bs.length := by
  induction hE with
  | nil => exact Nat.zero_le _
  | cons hA _ ih =>
    have := h _ _ hA
    simp only [List.map_cons, List.sum_cons, List.length_append, Nat.mul_add]
    omega

theorem prefixed_le (n s k : Nat) (w r : List Byte) (hw : w.length = 2) (hn : n ≤ 65535)
    (hs : s ≤ 32768 * r.length) : n + s ≤ 32768 * (w ++ r).length := by
  rw [List.length_append, hw]; omega

mutual

theorem accepts_elements : (t : Ty) → (bs : List Byte) → (v : t.Val) → Accepts t bs v →
    elements t v ≤ 32768 * bs.length
  | .num k, bs, v, h => Nat.zero_le _
  | .bool, bs, v, h => Nat.zero_le _
  | .char, bs, v, h => Nat.zero_le _
  | .usize, bs, v, h => Nat.zero_le _
  | .isize, bs, v, h => Nat.zero_le _
  | .nonZero r, bs, v, h => Nat.zero_le _
  | .unit k, bs, v, h => Nat.zero_le _
  | .infallible, bs, v, h => nomatch v
  | .wrap _ t, bs, v, h => accepts_elements t bs v h
  | .array t n, bs, v, h => each_sum_le (accepts_elements t) h
  | .seq k t, bs, v, h => by
    obtain ⟨r, hl, rfl, hE⟩ := h
    exact prefixed_le _ _ 0 _ r (leBytes_length _ _) hl (each_sum_le (accepts_elements t) hE)
  | .hashMap k v, bs, m, h => by
    obtain ⟨l, r, hl, rfl, hE, hM⟩ := h
    have h1 := @length_le_of_subset _ m.val l (@mapOf_nodup _ _ k.decEq _ _ hM)
      (@mapOf_subset _ _ k.decEq _ _ hM)
    have h2 := @sum_le_of_subset _ (fun p : k.Val × v.Val => elements k p.1 + elements v p.2) m.val l
      (@mapOf_nodup _ _ k.decEq _ _ hM) (@mapOf_subset _ _ k.decEq _ _ hM)
    refine prefixed_le _ _ 0 _ r (leBytes_length _ _) (by omega) (Nat.le_trans h2
      (each_sum_le ?_ hE))
    rintro b p ⟨b1, b2, rfl, hA, hB⟩
    have h3 := accepts_elements k _ _ hA
    have h4 := accepts_elements v _ _ hB
    rw [List.length_append]; omega
  | .hashSet k, bs, s, h => by
    obtain ⟨l, r, hl, rfl, hE, hs⟩ := h
    have hsub : s.val ⊆ l := by
      rw [hs]; intro x hx; exact (@mem_firsts _ k.decEq l x).mp hx
    have h1 := length_le_of_subset s.val l s.property hsub
    have h2 := sum_le_of_subset (f := elements k) s.val l s.property hsub
    exact prefixed_le _ _ 0 _ r (leBytes_length _ _) (by omega) (Nat.le_trans h2
      (each_sum_le (accepts_elements k) hE))
  | .option t, bs, none, h => Nat.zero_le _
  | .option t, bs, some v, h => by
    obtain ⟨b, r, _, rfl, hA⟩ := h
    have := accepts_elements t r v hA
    show elements t v ≤ _
    rw [List.length_cons]; omega
  | .result t e, bs, .ok v, h => by
    obtain ⟨r, rfl, hA⟩ := h
    have := accepts_elements t r v hA
    show elements t v ≤ _
    rw [List.length_cons]; omega
  | .result t e, bs, .err v, h => by
    obtain ⟨b, r, _, rfl, hA⟩ := h
    have := accepts_elements e r v hA
    show elements e v ≤ _
    rw [List.length_cons]; omega
  | .bound t, bs, .included v, h => by
    obtain ⟨r, rfl, hA⟩ := h
    have := accepts_elements t r v hA
    show elements t v ≤ _
    rw [List.length_cons]; omega
  | .bound t, bs, .excluded v, h => by
    obtain ⟨r, rfl, hA⟩ := h
    have := accepts_elements t r v hA
    show elements t v ≤ _
    rw [List.length_cons]; omega
  | .bound t, bs, .unbounded, h => Nat.zero_le _
  | .range t, bs, v, h => by
    obtain ⟨b1, b2, rfl, h1, h2⟩ := h
    have h3 := accepts_elements t _ _ h1
    have h4 := accepts_elements t _ _ h2
    show elements t v.start + elements t v.stop ≤ _
    rw [List.length_append]; omega
  | .rangeInclusive t, bs, v, h => by
    obtain ⟨_, b1, b2, rfl, h1, h2⟩ := h
    have h3 := accepts_elements t _ _ h1
    have h4 := accepts_elements t _ _ h2
    show elements t v.start + elements t v.stop ≤ _
    rw [List.length_append]; omega
  | .lock _ t, bs, v, h => accepts_elements t bs v.val h.2
  | .refCell t, bs, v, h => accepts_elements t bs v.val h.2
  | .duration, bs, v, h => Nat.zero_le _
  | .systemTime p, bs, v, h => Nat.zero_le _
  | .ipv4, bs, v, h => Nat.zero_le _
  | .ipv6, bs, v, h => Nat.zero_le _
  | .ipAddr, bs, v, h => Nat.zero_le _
  | .socketAddrV4, bs, v, h => Nat.zero_le _
  | .socketAddrV6, bs, v, h => Nat.zero_le _
  | .socketAddr, bs, v, h => Nat.zero_le _
  | .str k, bs, v, h => by
    rw [h.2]
    exact prefixed_le v.val.length 0 0 _ _ (leBytes_length _ _) h.1 (Nat.zero_le _)
  | .cStr k, bs, v, h => by
    rw [h.2]
    exact prefixed_le v.val.length 0 0 _ _ (leBytes_length _ _) h.1 (Nat.zero_le _)
  | .sizedStr n, bs, v, h => by
    rw [h.2]
    exact prefixed_le v.val.length 0 0 _ _ (leBytes_length _ _) h.1 (Nat.zero_le _)
  | .sizedSlice t n, bs, v, h => by
    obtain ⟨l, r, hl, hk, rfl, hE, hp⟩ := h
    have h1 : (v.val.map (elements t)).sum ≤ (l.map (elements t)).sum := by
      obtain ⟨l', rfl⟩ := hp
      rw [List.map_append, List.sum_append]; omega
    exact prefixed_le _ _ 0 _ r (leBytes_length _ _) hk (Nat.le_trans h1
      (each_sum_le (accepts_elements t) hE))
  | .tuple fs, bs, v, h => acceptsFields_elements fs bs v h
  | .struct fs, bs, v, h => acceptsFields_elements fs bs v h
  | .enum r vs, bs, v, h => acceptsVariants_elements vs r (explicitDiscs vs) 0 bs v h

theorem acceptsFields_elements : (fs : Fields) → (bs : List Byte) → (v : fs.Val) →
    AcceptsFields fs bs v → elementsFields fs v ≤ 32768 * bs.length
  | .nil, bs, v, h => Nat.zero_le _
  | .cons t fs, bs, v, h => by
    obtain ⟨b1, b2, rfl, h1, h2⟩ := h
    have h3 := accepts_elements t _ _ h1
    have h4 := acceptsFields_elements fs _ _ h2
    show elements t v.1 + elementsFields fs v.2 ≤ _
    rw [List.length_append]; omega

theorem acceptsVariants_elements : (vs : Variants) → (r : Repr) → (ex : List (Option Nat)) →
    (j : Nat) → (bs : List Byte) → (v : vs.Val) → AcceptsVariants r ex vs j bs v →
    elementsVariants vs v ≤ 32768 * bs.length
  | .nil, _, _, _, _, v, _ => nomatch v
  | .cons d fs vs, r, ex, j, bs, .inl v, h => by
    obtain ⟨_, w, rfl, hA⟩ := h
    have := acceptsFields_elements fs w v hA
    show elementsFields fs v ≤ _
    rw [List.length_append]; omega
  | .cons d fs vs, r, ex, j, bs, .inr v, h => acceptsVariants_elements vs r ex (j + 1) bs v h

end

end Oct
