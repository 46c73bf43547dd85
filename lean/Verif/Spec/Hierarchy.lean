/-!
# Specification of a hierarchy of nested data subsets

`subset l j` is the `j`-th subset (counted from 1) of level `l` (counted from 1).  Independent of the model.
-/

namespace CatLearn.Spec

/-- The names of all subsets of the levels `1 … L`, level by level: level `l` has `2^l` subsets. -/
def hierarchyKeys (L : Nat) : List (Nat × Nat) :=
  (List.range L).flatMap fun l => (List.range (2 ^ (l + 1))).map fun j => (l + 1, j + 1)

/-- A correct hierarchy over the index list `all` with levels `1 … L`, none of whose subsets is
smaller than `minSplit`. -/
structure GoodHierarchy {ι : Type} (keys : List (Nat × Nat)) (subset : Nat → Nat → List ι)
    (all : List ι) (minSplit L : Nat) : Prop where
  /-- at least one level -/
  levels : 1 ≤ L
  /-- exactly the subsets of the levels `1 … L` are present, each once, in order -/
  keys_eq : keys = hierarchyKeys L
  /-- every level is a partition of all indices -/
  partition : ∀ l, 1 ≤ l → l ≤ L →
    ((List.range (2 ^ l)).map fun j => subset l (j + 1)).flatten.Perm all
  /-- sizes on one level differ by at most one -/
  sizes : ∀ l j, 1 ≤ l → l ≤ L → 1 ≤ j → j ≤ 2 ^ l →
    (subset l j).length = all.length / 2 ^ l ∨ (subset l j).length = all.length / 2 ^ l + 1
  /-- no subset is smaller than requested -/
  large : ∀ l j, 1 ≤ l → l ≤ L → 1 ≤ j → j ≤ 2 ^ l → minSplit ≤ (subset l j).length
  /-- subset `j` of a level is the disjoint union of subsets `2j-1` and `2j` of the next level -/
  nested : ∀ l j, 1 ≤ l → l < L → 1 ≤ j → j ≤ 2 ^ l →
    (subset (l + 1) (2 * j - 1) ++ subset (l + 1) (2 * j)).Perm (subset l j)
  /-- no further level would fit -/
  maximal : all.length / 2 ^ (L + 1) < minSplit

end CatLearn.Spec
