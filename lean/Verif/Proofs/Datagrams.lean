import Verif.Proofs.Sender
import Verif.Proofs.Receiver
/-
Datagrams that are decoded by themselves.
-/
namespace Oct
open Spec Props

namespace Receiver

theorem accepts_wire (t : Ty) (ht : t.WF) (v : t.Val) (hs : Supported t v) (hv : Encodable t v) :
    Accepts t (wire t v) (carried t v) := by
  have h := Ty.decode_decodes t ht v hs hv [] []
  obtain ⟨bs, rest, h1, h2, h3⟩ := (C52_accepted t ht _ _ _).mp h
  have h1 : wire t v ++ [] = bs ++ rest := h1
  have h3 : 0 + (wire t v).length = 0 + bs.length := congrArg Input.pos h3
  rw [(List.append_inj h1 (by omega)).1]
  exact h2

theorem says_group : ∀ (g : List (Sigma Ty.Val)) (ts : List Ty),
    (∀ x ∈ g, x.1.WF ∧ Supported x.1 x.2 ∧ Encodable x.1 x.2) →
    Says (expecting (g.map Sigma.fst ++ ts)) (octetsOf g) (g.map fun x => ⟨x.1, carried x.1 x.2⟩) (expecting ts)
  | [], ts, _ => .nil _
  | x :: g, ts, h => by
    have hx := h x List.mem_cons_self
    exact .cons (accepts_wire x.1 hx.1 x.2 hx.2.1 hx.2.2)
      (says_group g ts fun y hy => h y (List.mem_cons_of_mem _ hy))

theorem receive_group {g : List (Sigma Ty.Val)} {ts : List Ty} {pieces : List (List Byte)}
    (h : ∀ x ∈ g, x.1.WF ∧ Supported x.1 x.2 ∧ Encodable x.1 x.2) (hts : ∀ t ∈ ts, t.WF)
    (hp : pieces.flatten = octetsOf g) :
    receive (expecting (g.map Sigma.fst ++ ts)) pieces =
      { pump (expecting ts) [] with
        got := (g.map fun x => ⟨x.1, carried x.1 x.2⟩) ++ (pump (expecting ts) []).got } := by
  rw [receive_eq, hp, ← List.append_nil (octetsOf g)]
  refine says_pump (says_group g ts h) (expecting_wf _ ?_) []
  intro t ht
  rcases List.mem_append.mp ht with ht | ht
  · obtain ⟨x, hx, rfl⟩ := List.mem_map.mp ht
    exact (h x hx).1
  · exact hts t ht

end Receiver

namespace Spec

theorem Divided.mem {α : Type} {P : α → Prop} {xs ys ns : List α} (h : Divided P xs ys ns) :
    ∀ y ∈ ys, y ∈ xs ∧ P y := by
  induction h with
  | nil => exact fun _ h => nomatch h
  | has hx _ ih =>
    intro y hy
    rcases List.mem_cons.mp hy with rfl | hy
    · exact ⟨List.mem_cons_self, hx⟩
    · exact ⟨List.mem_cons_of_mem _ (ih y hy).1, (ih y hy).2⟩
  | lacks _ _ ih => exact fun y hy => ⟨List.mem_cons_of_mem _ (ih y hy).1, (ih y hy).2⟩

end Spec
end Oct
