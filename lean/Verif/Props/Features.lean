import Verif.Proofs.Features
/-
C96, C97: features and targets.
-/
namespace Oct.Props
open Oct Spec

/-- The default features on a target without any atomic type. -/
def defaultConfig : Config := ⟨true, true, true, false, false, false, false, false⟩

/-- C96. With the features `alloc` and `std` each name that is used stands, whatever the target and
whether or not `proc-macro` is set. Missing: the other choices of features, for which this is false,
see `C96_false_features`. -/
theorem C96_features_partial (c : Config) (ha : c.alloc = true) (hs : c.std = true) :
    NamesResolve c := by
  obtain ⟨a, s, p, a8, a16, a32, a64, ap⟩ := c
  simp only at ha hs
  subst ha hs
  exact uses_resolve p a8 a16 a32 a64 ap

example : NamesResolve defaultConfig := C96_features_partial _ rfl rfl
example : (⟨.decode, 216, .imported .decode .box, .alloc⟩ : CondUse) ∈ condUses := by decide +kernel

/-- C96 is exact: without `alloc`, or without `std`, some name that is used does not stand. -/
theorem C96_features_exact (c : Config) :
    NamesResolve c ↔ c.alloc = true ∧ c.std = true := by
  refine ⟨fun h => ⟨?_, ?_⟩, fun h => C96_features_partial c h.1 h.2⟩
  · exact h ⟨.decode, 27, .cStringDecodeError, .always⟩ (by decide +kernel) rfl
  · exact h ⟨.decode, 32, .systemTimeDecodeError, .always⟩ (by decide +kernel) rfl

/-- C96 is false in general: no choice of features makes the crate stand without `std`, and there
are such choices. (The documentation has `std` as a feature that may be left out.) -/
theorem C96_false_features :
    (∃ c, NoStd c) ∧ ∀ c, NoStd c → ¬ NamesResolve c := by
  refine ⟨⟨bare, rfl⟩, fun c hc h => ?_⟩
  have := ((C96_features_exact c).mp h).2
  rw [hc] at this
  exact Bool.noConfusion this

/-- The uses that do not stand under the condition of the name they use: the imports of the two
error types, the payload of `NullString`, its arm in `Display` and its use in `From`, and `std` in
the impls for atomic types. -/
def Misplaced (u : CondUse) : Prop :=
  (u.file, u.line) ∈ [(SrcFile.decode, 27), (.decode, 32), (.genericDecodeError, 31),
    (.genericDecodeError, 56), (.genericDecodeError, 85), (.genericDecodeError, 147)] ∨
  (u.name = .crateStd ∧ u.cond ∈ [Cond.atomic8, .atomic16, .atomic32, .atomic64, .atomicPtr])

instance (u : CondUse) : Decidable (Misplaced u) := by unfold Misplaced; infer_instance

theorem misplaced_iff : ∀ u ∈ condUses, Misplaced u ↔ u.evident = false := by decide +kernel

/-- C96: the places. A use resolves under each configuration unless it is one of those listed. -/
theorem C96_places (u : CondUse) (hu : u ∈ condUses) : AlwaysResolves u ↔ ¬ Misplaced u := by
  constructor
  · intro h hm
    rcases uses_fail u hu ((misplaced_iff u hu).mp hm) with ⟨h1, h2⟩ | ⟨h1, h2⟩ | ⟨h1, h2⟩
    all_goals
      have := h _ h1
      rw [h2] at this
      exact Bool.noConfusion this
  · intro h
    apply CondUse.resolves_of_evident
    cases he : u.evident with
    | true => rfl
    | false => exact absurd ((misplaced_iff u hu).mpr he) h

example : ¬ AlwaysResolves ⟨.encode, 922, .crateStd, .atomic8⟩ := fun h =>
  (C96_places _ (by decide +kernel)).mp h (by decide)

/-- The types for which `Encode` is implemented but not `Decode`: those that are not owned, and
those that are not read back (`LazyCell` and `LazyLock`). -/
def notDecodable : List ImplHead := [.ref, .refMut, .slice, .str, .cStr, .lazyCell, .lazyLock]

/-- The types for which `Encode` is implemented but not `SizedEncode`: those of no bounded size, and
`PhantomPinned`. -/
def notSized : List ImplHead :=
  [.slice, .str, .cStr, .cString, .hashMap, .hashSet, .linkedList, .string, .vec, .phantomPinned]

/-- C97. Under each configuration a type that implements `SizedEncode` or `Decode` implements
`Encode`, and one that implements `DecodeBorrowed` implements `Decode`. -/
theorem C97_traits (c : Config) (h : ImplHead) :
    (Implemented c .sizedEncode h → Implemented c .encode h) ∧
    (Implemented c .decode h → Implemented c .encode h) ∧
    (Implemented c .decodeBorrowed h → Implemented c .decode h) :=
  ⟨implemented_of (p := fun _ => True) (by decide +kernel) trivial,
    implemented_of (p := fun _ => True) (by decide +kernel) trivial,
    implemented_of (p := fun _ => True) (by decide +kernel) trivial⟩

example : Implemented bare .sizedEncode .option := ⟨⟨184, .sizedEncode, .option, .always⟩,
  by decide +kernel, rfl, rfl, rfl⟩

/-- C97, the other way around: whatever implements `Encode` implements `Decode` and `SizedEncode`
under the same configurations, except for the types listed. -/
theorem C97_traits_back (c : Config) (h : ImplHead) (he : Implemented c .encode h) :
    (Implemented c .decode h ↔ h ∉ notDecodable) ∧
    (Implemented c .sizedEncode h ↔ h ∉ notSized) := by
  have not : ∀ {t : CondTrait} {l : List ImplHead},
      (∀ i ∈ condImpls, i.trait = t → i.head ∉ l) → Implemented c t h → h ∉ l := by
    rintro t l hl ⟨i, hi, ht, rfl, -⟩
    exact hl i hi ht
  exact ⟨⟨not (by decide +kernel),
      fun hn => implemented_of (p := fun d => d ∉ notDecodable) (by decide +kernel) hn he⟩,
    not (by decide +kernel),
    fun hn => implemented_of (p := fun d => d ∉ notSized) (by decide +kernel) hn he⟩

example : Implemented defaultConfig .encode .vec ∧ ¬ Implemented bare .encode .vec := by
  refine ⟨⟨⟨836, .encode, .vec, .alloc⟩, by decide +kernel, rfl, rfl, rfl⟩, ?_⟩
  rintro ⟨i, hi, ht, hh, hc⟩
  have : ∀ i ∈ condImpls, i.trait = .encode → i.head = .vec → i.cond = .alloc := by decide +kernel
  rw [this i hi ht hh] at hc
  exact Bool.noConfusion hc

/-- C97: at most one impl of a trait for a type. -/
theorem C97_one_impl (i j : CondImpl) (hi : i ∈ condImpls) (hj : j ∈ condImpls)
    (ht : i.trait = j.trait) (hh : i.head = j.head) : i = j := by
  have : condImpls.Pairwise fun i j => ¬ (i.trait = j.trait ∧ i.head = j.head) := by
    decide +kernel
  revert i j
  generalize condImpls = l at this
  intro i j hi hj ht hh
  induction this with
  | nil => exact absurd hi (by simp)
  | cons hx _ ih =>
    rcases List.mem_cons.mp hi with rfl | hi' <;> rcases List.mem_cons.mp hj with rfl | hj'
    · rfl
    · exact absurd ⟨ht, hh⟩ (hx j hj')
    · exact absurd ⟨ht.symm, hh.symm⟩ (hx i hi')
    · exact ih hi' hj'

end Oct.Props
