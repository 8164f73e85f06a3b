import Verif.Spec.RoundTrip
/- `Everywhere` as a quantifier. -/
namespace Oct
open Spec

mutual

theorem everywhere_mono {p q : Ty → Prop} (h : ∀ t, p t → q t) :
    (t : Ty) → Everywhere p t → Everywhere q t
  | .wrap _ t, ht => ⟨h _ ht.1, everywhere_mono h t ht.2⟩
  | .array t _, ht => ⟨h _ ht.1, everywhere_mono h t ht.2⟩
  | .seq _ t, ht => ⟨h _ ht.1, everywhere_mono h t ht.2⟩
  | .hashMap k v, ht => ⟨h _ ht.1, everywhere_mono h k ht.2.1, everywhere_mono h v ht.2.2⟩
  | .hashSet k, ht => ⟨h _ ht.1, everywhere_mono h k ht.2⟩
  | .option t, ht => ⟨h _ ht.1, everywhere_mono h t ht.2⟩
  | .result t e, ht => ⟨h _ ht.1, everywhere_mono h t ht.2.1, everywhere_mono h e ht.2.2⟩
  | .bound t, ht => ⟨h _ ht.1, everywhere_mono h t ht.2⟩
  | .range t, ht => ⟨h _ ht.1, everywhere_mono h t ht.2⟩
  | .rangeInclusive t, ht => ⟨h _ ht.1, everywhere_mono h t ht.2⟩
  | .lock _ t, ht => ⟨h _ ht.1, everywhere_mono h t ht.2⟩
  | .refCell t, ht => ⟨h _ ht.1, everywhere_mono h t ht.2⟩
  | .sizedSlice t _, ht => ⟨h _ ht.1, everywhere_mono h t ht.2⟩
  | .tuple fs, ht => ⟨h _ ht.1, everywhereFields_mono h fs ht.2⟩
  | .struct fs, ht => ⟨h _ ht.1, everywhereFields_mono h fs ht.2⟩
  | .enum _ vs, ht => ⟨h _ ht.1, everywhereVariants_mono h vs ht.2⟩
  | .num _, ht => h _ ht
  | .bool, ht => h _ ht
  | .char, ht => h _ ht
  | .usize, ht => h _ ht
  | .isize, ht => h _ ht
  | .nonZero _, ht => h _ ht
  | .unit _, ht => h _ ht
  | .infallible, ht => h _ ht
  | .duration, ht => h _ ht
  | .systemTime _, ht => h _ ht
  | .ipv4, ht => h _ ht
  | .ipv6, ht => h _ ht
  | .ipAddr, ht => h _ ht
  | .socketAddrV4, ht => h _ ht
  | .socketAddrV6, ht => h _ ht
  | .socketAddr, ht => h _ ht
  | .str _, ht => h _ ht
  | .cStr _, ht => h _ ht
  | .sizedStr _, ht => h _ ht

theorem everywhereFields_mono {p q : Ty → Prop} (h : ∀ t, p t → q t) :
    (fs : Fields) → EverywhereFields p fs → EverywhereFields q fs
  | .nil, _ => trivial
  | .cons t fs, ht => ⟨everywhere_mono h t ht.1, everywhereFields_mono h fs ht.2⟩

theorem everywhereVariants_mono {p q : Ty → Prop} (h : ∀ t, p t → q t) :
    (vs : Variants) → EverywhereVariants p vs → EverywhereVariants q vs
  | .nil, _ => trivial
  | .cons _ fs vs, ht => ⟨everywhereFields_mono h fs ht.1, everywhereVariants_mono h vs ht.2⟩

end

mutual

theorem everywhere_of_all {p : Ty → Prop} (h : ∀ t, p t) : (t : Ty) → Everywhere p t
  | .wrap _ t => ⟨h _, everywhere_of_all h t⟩
  | .array t _ => ⟨h _, everywhere_of_all h t⟩
  | .seq _ t => ⟨h _, everywhere_of_all h t⟩
  | .hashMap k v => ⟨h _, everywhere_of_all h k, everywhere_of_all h v⟩
  | .hashSet k => ⟨h _, everywhere_of_all h k⟩
  | .option t => ⟨h _, everywhere_of_all h t⟩
  | .result t e => ⟨h _, everywhere_of_all h t, everywhere_of_all h e⟩
  | .bound t => ⟨h _, everywhere_of_all h t⟩
  | .range t => ⟨h _, everywhere_of_all h t⟩
  | .rangeInclusive t => ⟨h _, everywhere_of_all h t⟩
  | .lock _ t => ⟨h _, everywhere_of_all h t⟩
  | .refCell t => ⟨h _, everywhere_of_all h t⟩
  | .sizedSlice t _ => ⟨h _, everywhere_of_all h t⟩
  | .tuple fs => ⟨h _, everywhereFields_of_all h fs⟩
  | .struct fs => ⟨h _, everywhereFields_of_all h fs⟩
  | .enum _ vs => ⟨h _, everywhereVariants_of_all h vs⟩
  | .num _ => h _
  | .bool => h _
  | .char => h _
  | .usize => h _
  | .isize => h _
  | .nonZero _ => h _
  | .unit _ => h _
  | .infallible => h _
  | .duration => h _
  | .systemTime _ => h _
  | .ipv4 => h _
  | .ipv6 => h _
  | .ipAddr => h _
  | .socketAddrV4 => h _
  | .socketAddrV6 => h _
  | .socketAddr => h _
  | .str _ => h _
  | .cStr _ => h _
  | .sizedStr _ => h _

theorem everywhereFields_of_all {p : Ty → Prop} (h : ∀ t, p t) : (fs : Fields) → EverywhereFields p fs
  | .nil => trivial
  | .cons t fs => ⟨everywhere_of_all h t, everywhereFields_of_all h fs⟩

theorem everywhereVariants_of_all {p : Ty → Prop} (h : ∀ t, p t) :
    (vs : Variants) → EverywhereVariants p vs
  | .nil => trivial
  | .cons _ fs vs => ⟨everywhereFields_of_all h fs, everywhereVariants_of_all h vs⟩

end

end Oct
