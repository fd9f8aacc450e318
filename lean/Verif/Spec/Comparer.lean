import Verif.Model.Comparer
/-! # Specification vocabulary for comparisons -/
namespace Verif.Comparer

/-- What a call should find: do the values differ? -/
def differs : Op → Bool
  | .field l r n => decide (n ≤ 64) && decide (l ≠ r)
  | .val l r => decide (l ≠ r)

end Verif.Comparer
