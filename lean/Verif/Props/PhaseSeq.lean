import Verif.Model.PhaseSeq
/-! # Properties of default sequences of phases -/
namespace Verif.PhaseSeq

/-- C228, violated: however many default sequences are set for a phase of a sequencer, none is ever started: no resource is a `UVMConfigDb`. -/
theorem C228_default_sequence_fails (vs : List Val) : start (vs.map setting) = .noDefault := by
  induction vs with
  | nil => rfl
  | cons v vs ih => simpa [start, setting, isInstance, Class.base] using ih

example : start ([.seq 1, .wrapper 7 true].map setting) = .noDefault := by decide

end Verif.PhaseSeq
