import Mathlib.Data.Multiset.Basic
import Mathlib.Data.List.Nodup

/-!
# Specification vocabulary for feature engineering
-/

namespace CatLearn.Spec

/-- The list `pairs` contains every pair `f1 ≤ f2 < m` exactly once, and nothing else. -/
def UnorderedPairs (m : Nat) (pairs : List (Nat × Nat)) : Prop :=
  pairs.Nodup ∧ ∀ f1 f2, (f1, f2) ∈ pairs ↔ f1 ≤ f2 ∧ f2 < m

/-- The list `ms` contains, up to order of the factors, every product of at most `N` symbols of `p` (the
empty product only if `one`) exactly once, and nothing else. -/
def Monomials {α : Type} (p : List α) (N : Nat) (one : Bool) (ms : List (List α)) : Prop :=
  (ms.map fun m : List α => (m : Multiset α)).Nodup ∧
  ∀ s : Multiset α, s ∈ ms.map (fun m : List α => (m : Multiset α)) ↔
    (∀ x ∈ s, x ∈ p) ∧ s.card ≤ N ∧ (s = 0 → one = true)

/-- The list `rs` contains every fraction in lowest terms of two products of at most `N` and `D` of `n`
symbols (the fraction 1/1 only if `one`) exactly once, up to order of the factors, and nothing else. -/
def ReducedFractions (n N D : Nat) (one : Bool) (rs : List (List Nat × List Nat)) : Prop :=
  (rs.map fun r : List Nat × List Nat => ((r.1 : Multiset Nat), (r.2 : Multiset Nat))).Nodup ∧
  ∀ s t : Multiset Nat, (s, t) ∈ rs.map (fun r : List Nat × List Nat => ((r.1 : Multiset Nat), (r.2 : Multiset Nat))) ↔
    (∀ x ∈ s, x < n) ∧ (∀ x ∈ t, x < n) ∧ s.card ≤ N ∧ t.card ≤ D ∧ (∀ x ∈ s, x ∉ t) ∧
      (s = 0 ∧ t = 0 → one = true)

end CatLearn.Spec
