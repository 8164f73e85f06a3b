import Verif.Spec.Recursive
import Verif.Proofs.Local
/-
Decoders of recursive types at different depths.
-/
namespace Oct
open Spec
set_option linter.unusedVariables false
variable {α β γ δ : Type}

theorem Local.keeps {m : Dec α} (h : Local m) (i : Input) (hi : i.WF) :
    (m i).2.WF ∧ (m i).2.remaining ≤ i.remaining := by
  obtain ⟨buf, pos⟩ := i
  have hp : pos ≤ buf.length := hi
  obtain ⟨r, n, hn, h1, _⟩ := h (buf.drop pos)
  have := h1 (buf.take pos)
  rw [List.take_append_drop, List.length_take, Nat.min_eq_left hp] at this
  rw [this]
  rw [List.length_drop] at hn
  constructor
  · show pos + n ≤ buf.length
    omega
  · show buf.length - (pos + n) ≤ buf.length - pos
    omega

/-- From inputs of fewer than `B` octets, `d'` does what `d` does, up to `f`; unless, if allowed, `d`
hits the mark of the innermost unrolling. -/
def AgreeUpTo (esc : Prop) (B : Nat) (f : α → β) (d : Dec α) (d' : Dec β) : Prop :=
  ∀ i : Input, i.WF → i.remaining < B →
    (esc ∧ (d i).1 = .panic .infallible) ∨ d' i = ((d i).1.map f, (d i).2)

/-- Success takes at least one octet. -/
def EatsDec (d : Dec α) : Prop :=
  ∀ i : Input, i.WF → ∀ a i', d i = (.ok a, i') → i'.remaining < i.remaining

namespace AgreeUpTo
variable {esc : Prop} {B : Nat}

theorem refl (d : Dec α) : AgreeUpTo esc B id d d := by
  intro i _ _
  right
  cases h : d i with
  | mk r i' => cases r <;> rfl

theorem of_eq {f : α → α} (hf : ∀ a, f a = a) (d : Dec α) : AgreeUpTo esc B f d d := by
  have : f = id := funext hf
  rw [this]
  exact refl d

theorem mono {B' : Nat} (hB : B' ≤ B) {f : α → β} {d : Dec α} {d' : Dec β}
    (h : AgreeUpTo esc B f d d') : AgreeUpTo esc B' f d d' := fun i hi hl => h i hi (by omega)

theorem pure {f : α → β} (a : α) : AgreeUpTo esc B f (Pure.pure a) (Pure.pure (f a)) :=
  fun _ _ _ => .inr rfl

theorem pure' {f : α → β} (a : α) (b : β) (h : f a = b) :
    AgreeUpTo esc B f (Pure.pure a) (Pure.pure b) := h ▸ pure a

theorem fail {f : α → β} (e : DecErr) : AgreeUpTo esc B f (Dec.fail e) (Dec.fail e) :=
  fun _ _ _ => .inr rfl

theorem panic {f : α → β} (p : Panic) : AgreeUpTo esc B f (Dec.panic p) (Dec.panic p) :=
  fun _ _ _ => .inr rfl

theorem mapErr {f : α → β} {d : Dec α} {d' : Dec β} (g : DecErr → DecErr)
    (h : AgreeUpTo esc B f d d') : AgreeUpTo esc B f (d.mapErr g) (d'.mapErr g) := by
  intro i hi hl
  rcases h i hi hl with ⟨he, h⟩ | h
  · left
    refine ⟨he, ?_⟩
    unfold Dec.mapErr
    rw [h]
    rfl
  · right
    unfold Dec.mapErr
    rw [h]
    generalize d i = q
    obtain ⟨r, i'⟩ := q
    cases r <;> rfl

theorem bind {f : α → β} {g : γ → δ} {m : Dec α} {m' : Dec β} {h : α → Dec γ} {h' : β → Dec δ}
    (hm : AgreeUpTo esc B f m m') (hl : Local m) (hh : ∀ a, AgreeUpTo esc B g (h a) (h' (f a))) :
    AgreeUpTo esc B g (m >>= h) (m' >>= h') := by
  intro i hi hlt
  have hk := hl.keeps i hi
  have e1 : (m >>= h) i = Dec.bind m h i := rfl
  have e2 : (m' >>= h') i = Dec.bind m' h' i := rfl
  rw [e1, e2]
  unfold Dec.bind
  rcases hm i hi hlt with ⟨he, h1⟩ | h1
  · left
    refine ⟨he, ?_⟩
    generalize m i = q at h1
    obtain ⟨r, i'⟩ := q
    cases h1
    rfl
  · rw [h1]
    generalize m i = q at hk ⊢
    obtain ⟨r, i'⟩ := q
    cases r with
    | ok a => exact hh a i' hk.1 (Nat.lt_of_le_of_lt hk.2 hlt)
    | err e => right; rfl
    | panic p => right; rfl
    | ub u => right; rfl

/-- Once something has been read, there is less left. -/
theorem eat {g : γ → δ} {m : Dec α} {h : α → Dec γ} {h' : α → Dec δ}
    (hl : Local m) (hE : EatsDec m) (hh : ∀ a, AgreeUpTo esc (B - 1) g (h a) (h' a)) :
    AgreeUpTo esc B g (m >>= h) (m >>= h') := by
  intro i hi hlt
  have hk := hl.keeps i hi
  have e1 : (m >>= h) i = Dec.bind m h i := rfl
  have e2 : (m >>= h') i = Dec.bind m h' i := rfl
  rw [e1, e2]
  unfold Dec.bind
  have hE := hE i hi
  generalize m i = q at hk hE ⊢
  obtain ⟨r, i'⟩ := q
  cases r with
  | ok a =>
    have := hE a i' rfl
    exact hh a i' hk.1 (by omega)
  | err e => right; rfl
  | panic p => right; rfl
  | ub u => right; rfl

/-- As `bind`, where success of the first part takes at least one octet. -/
theorem bindEat {f : α → β} {g : γ → δ} {m : Dec α} {m' : Dec β} {h : α → Dec γ} {h' : β → Dec δ}
    (hm : AgreeUpTo esc B f m m') (hl : Local m) (hE : EatsDec m)
    (hh : ∀ a, AgreeUpTo esc (B - 1) g (h a) (h' (f a))) : AgreeUpTo esc B g (m >>= h) (m' >>= h') := by
  intro i hi hlt
  have hk := hl.keeps i hi
  have e1 : (m >>= h) i = Dec.bind m h i := rfl
  have e2 : (m' >>= h') i = Dec.bind m' h' i := rfl
  rw [e1, e2]
  unfold Dec.bind
  have hE := hE i hi
  rcases hm i hi hlt with ⟨he, h1⟩ | h1
  · left
    refine ⟨he, ?_⟩
    generalize m i = q at h1
    obtain ⟨r, i'⟩ := q
    cases h1
    rfl
  · rw [h1]
    generalize m i = q at hk hE ⊢
    obtain ⟨r, i'⟩ := q
    cases r with
    | ok a =>
      have := hE a i' rfl
      exact hh a i' hk.1 (by omega)
    | err e => right; rfl
    | panic p => right; rfl
    | ub u => right; rfl

theorem ite {f : α → β} {c : Prop} [Decidable c] {m n : Dec α} {m' n' : Dec β}
    (h : AgreeUpTo esc B f m m') (h' : AgreeUpTo esc B f n n') :
    AgreeUpTo esc B f (if c then m else n) (if c then m' else n') := by
  split
  · exact h
  · exact h'

end AgreeUpTo

theorem Items.ext {n : Nat} {a b : Items α n} (h : a.val = b.val) : a = b := Subtype.ext h

/-- The same number of items, each replaced. -/
def Items.map (f : α → β) {n : Nat} (a : Items α n) : Items β n :=
  ⟨a.val.map f, by simp [a.property]⟩

section decoders
variable {esc : Prop} {B : Nat}

theorem decItems_upTo {f : α → β} {d : Dec α} {d' : Dec β} (hl : Local d)
    (h : AgreeUpTo esc B f d d') : (n i : Nat) →
    AgreeUpTo esc B (Items.map f) (decItems d n i) (decItems d' n i)
  | 0, _ => AgreeUpTo.pure' _ _ (Items.ext rfl)
  | n + 1, i => by
    unfold decItems
    refine AgreeUpTo.bind (h.mapErr _) (hl.mapErr _) fun a => ?_
    refine AgreeUpTo.bind (decItems_upTo hl h n (i + 1)) (decItems_local hl n (i + 1)) fun l => ?_
    exact AgreeUpTo.pure' _ _ (Items.ext (by simp [Items.map]))

theorem decNum_eats (k : Nat) (hk : k ≠ 0) : EatsDec (decNum k) := by
  intro i _ a i' h
  have h' : Dec.bind (Dec.readInto k) (fun d => pure (fromLe d)) i = (.ok a, i') := h
  unfold Dec.bind at h'
  rw [readInto_eq_read] at h'
  unfold Dec.read Input.read at h'
  by_cases hc : i.buf.length - i.pos < k
  · simp only [hc, if_true] at h'
    cases h'
  · simp only [hc, if_false] at h'
    cases h'
    show i.buf.length - (i.pos + k) < i.buf.length - i.pos
    omega

theorem EatsDec.bind {m : Dec α} {f : α → Dec β} (hm : EatsDec m) (hf : ∀ a, Local (f a))
    (hl : Local m) : EatsDec (m >>= f) := by
  intro i hi b i' h
  have h' : Dec.bind m f i = (.ok b, i') := h
  unfold Dec.bind at h'
  have hk := hl.keeps i hi
  have hE := hm i hi
  generalize m i = q at h' hk hE
  obtain ⟨r, i1⟩ := q
  cases r with
  | ok a =>
    have h1 := hE a i1 rfl
    have h2 := (hf a).keeps i1 hk.1
    rw [show f a i1 = (.ok b, i') from h'] at h2
    exact Nat.lt_of_le_of_lt h2.2 h1
  | err e => cases h'
  | panic p => cases h'
  | ub u => cases h'

theorem EatsDec.bindRight {m : Dec α} {f : α → Dec β} (hl : Local m) (hf : ∀ a, EatsDec (f a)) :
    EatsDec (m >>= f) := by
  intro i hi b i' h
  have h' : Dec.bind m f i = (.ok b, i') := h
  unfold Dec.bind at h'
  have hk := hl.keeps i hi
  generalize m i = q at h' hk
  obtain ⟨r, i1⟩ := q
  cases r with
  | ok a => exact Nat.lt_of_lt_of_le (hf a i1 hk.1 b i' h') hk.2
  | err e => cases h'
  | panic p => cases h'
  | ub u => cases h'

theorem EatsDec.mapErr {m : Dec α} (hm : EatsDec m) (g : DecErr → DecErr) :
    EatsDec (m.mapErr g) := by
  intro i hi a i' h
  unfold Dec.mapErr at h
  have hE := hm i hi
  generalize m i = q at h hE
  obtain ⟨r, i1⟩ := q
  cases r with
  | ok b => cases h; exact hE _ _ rfl
  | err e => cases h
  | panic p => cases h
  | ub u => cases h

theorem EatsDec.of_local {m : Dec α} {f : α → Dec β} {k : Dec β} (hk : k = m >>= f)
    (hm : EatsDec m) (hf : ∀ a, Local (f a)) (hl : Local m) : EatsDec k := hk ▸ hm.bind hf hl

theorem decU8_eats : EatsDec decU8 := decNum_eats 1 (by decide)
theorem decUsize_eats : EatsDec decUsize := decNum_eats 2 (by decide)
theorem decBool_eats : EatsDec decBool := decU8_eats.bind (fun _ => Local.pure' _) decU8_local

theorem decRepr_eats (r : Repr) : EatsDec (decRepr r) := by
  cases r with
  | int k =>
    exact (decNum_eats k.bytes (by cases k <;> decide)).bind (fun _ => Local.pure' _)
      (decNum_local _)
  | usize => exact decUsize_eats.bind (fun _ => Local.pure' _) decUsize_local
  | isize => exact (decNum_eats 2 (by decide)).bind (fun _ => Local.pure' _) (decNum_local 2)

/-- Shows that a decoder made of reads, tests and returns looks only at what it consumes. -/
macro "is_local" : tactic => `(tactic|
  repeat' first
    | exact Local.pure' _
    | exact Local.fail _
    | exact Local.panic _
    | exact Local.ub _
    | exact Local.read _
    | exact decNum_local _
    | exact decIpv4_local
    | exact decIpv6_local
    | exact decSocketAddrV4_local
    | exact decSocketAddrV6_local
    | assumption
    | refine Local.bind' ?_ fun _ => ?_
    | refine Local.mapErr _ ?_
    | split)

theorem decItems_eats {d : Dec α} (hl : Local d) (hd : EatsDec d) (n i : Nat) (hn : n ≠ 0) :
    EatsDec (decItems d n i) := by
  match n, hn with
  | n + 1, _ =>
    exact (hd.mapErr _).bind (fun _ => Local.bind' (decItems_local hl n (i + 1)) fun _ =>
      Local.pure' _) (hl.mapErr _)

end decoders

mutual

theorem Ty.decode_eats : (t : Ty) → Eats t → EatsDec t.decode
  | .num k, _ =>
    (decNum_eats k.bytes (by cases k with
      | int k => cases k <;> decide
      | f32 => decide
      | f64 => decide)).bind (fun _ => by is_local) (decNum_local _)
  | .bool, _ => decBool_eats
  | .char, _ => (decNum_eats 4 (by decide)).bind (fun _ => by is_local) (decNum_local _)
  | .usize, _ => decUsize_eats
  | .isize, _ => (decNum_eats 2 (by decide)).bind (fun _ => by is_local) (decNum_local _)
  | .nonZero r, _ => (decRepr_eats r).bind (fun _ => by is_local) (decRepr_local r)
  | .unit _, h => h.elim
  | .infallible, _ => fun i _ a i' h => by cases h
  | .wrap _ t, h => t.decode_eats h
  | .array t n, h => decItems_eats t.decode_local (t.decode_eats h.2) n 0 h.1
  | .seq _ t, _ =>
    decUsize_eats.bind (fun _ => Local.bind' (decItems_local t.decode_local _ _) fun _ =>
      Local.pure' _) decUsize_local
  | .hashMap k v, _ =>
    decUsize_eats.bind (fun _ => @decMapLoop_local _ _ k.decEq _ _ k.decode_local v.decode_local _ _
      _) decUsize_local
  | .hashSet k, _ =>
    decUsize_eats.bind (fun _ => @decSetLoop_local _ k.decEq _ k.decode_local _ _ _) decUsize_local
  | .option t, _ =>
    decBool_eats.bind (fun _ => by have := t.decode_local; is_local) decBool_local
  | .result t e, _ =>
    decBool_eats.bind (fun _ => by have := t.decode_local; have := e.decode_local; is_local)
      decBool_local
  | .bound t, _ => decU8_eats.bind (fun _ => by have := t.decode_local; is_local) decU8_local
  | .range t, h =>
    (t.decode_eats h).bind (fun _ => by have := t.decode_local; is_local) t.decode_local
  | .rangeInclusive t, h =>
    (t.decode_eats h).bind (fun _ => by have := t.decode_local; is_local) t.decode_local
  | .lock _ t, h => (t.decode_eats h).bind (fun _ => by is_local) t.decode_local
  | .refCell t, h => (t.decode_eats h).bind (fun _ => by is_local) t.decode_local
  | .duration, _ => (decNum_eats 8 (by decide)).bind (fun _ => by is_local) (decNum_local _)
  | .systemTime p, _ =>
    (decNum_eats 8 (by decide)).bind (fun _ => by dsimp only; is_local) (decNum_local _)
  | .ipv4, _ => (decNum_eats 4 (by decide)).bind (fun _ => by is_local) (decNum_local _)
  | .ipv6, _ => (decNum_eats 16 (by decide)).bind (fun _ => by is_local) (decNum_local _)
  | .ipAddr, _ => decU8_eats.bind (fun _ => by is_local) decU8_local
  | .socketAddrV4, _ =>
    ((decNum_eats 4 (by decide)).bind (fun _ => by is_local) (decNum_local _)).bind
      (fun _ => by is_local) decIpv4_local
  | .socketAddrV6, _ =>
    ((decNum_eats 16 (by decide)).bind (fun _ => by is_local) (decNum_local _)).bind
      (fun _ => by is_local) decIpv6_local
  | .socketAddr, _ => decU8_eats.bind (fun _ => by is_local) decU8_local
  | .str _, _ => decUsize_eats.bind (fun _ => by is_local) decUsize_local
  | .cStr _, _ => decUsize_eats.bind (fun _ => by is_local) decUsize_local
  | .sizedStr n, _ => decUsize_eats.bind (fun _ => by is_local) decUsize_local
  | .sizedSlice t n, _ =>
    decUsize_eats.bind (fun _ => by have := decItems_local t.decode_local n 0; is_local)
      decUsize_local
  | .tuple fs, h => fs.decode_eats h id
  | .struct fs, h => fs.decode_eats h DecErr.toGeneric
  | .enum r vs, _ => (decRepr_eats r).bind (fun x => vs.decode_local none x) (decRepr_local r)

theorem Fields.decode_eats : (fs : Fields) → EatsFields fs → (g : DecErr → DecErr) →
    EatsDec (fs.decode g)
  | .nil, h, _ => h.elim
  | .cons t fs, .inl h, g =>
    ((t.decode_eats h).mapErr g).bind (fun _ => by have := fs.decode_local g; is_local)
      (t.decode_local.mapErr g)
  | .cons t fs, .inr h, g =>
    EatsDec.bindRight (t.decode_local.mapErr g) fun _ =>
      (fs.decode_eats h g).bind (fun _ => Local.pure' _) (fs.decode_local g)

end

end Oct
