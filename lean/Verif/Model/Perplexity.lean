import Mathlib.Analysis.SpecialFunctions.Log.Basic
import Verif.Model.VQ

/-!
# Perplexity

Models the perplexity that `/repo/haiku/_src/nets/vqvae.py` reports, over the real numbers.
-/

namespace Verif.VQ

/-- `perplexity` as a function of `avg_probs` (`/repo/haiku/_src/nets/vqvae.py` 139, 322). -/
noncomputable def perplexity (numEmbeddings : Nat) (avgProbs : Nat → ℝ) : ℝ := Real.exp (-∑ j ∈ Finset.range numEmbeddings, avgProbs j * Real.log (avgProbs j + 1e-10))

end Verif.VQ
