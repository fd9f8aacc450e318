import Verif.Model.RegAtomic
/-! # Reading accesses to one register off the observable effects -/
namespace Verif.RegAtomic

/-- `t` has reached the end of an access, or was cancelled, in this stretch of the history. -/
def Ends (t : Nat) (outs : List Out) : Prop := .finished t ∈ outs ∨ .killed t ∈ outs

/-- No two accesses overlap: whenever an access of `t` starts and later an access (of anyone,
`t` included) starts, the first one has ended in between. -/
def Exclusive (outs : List Out) : Prop :=
  ∀ a b c t u, outs = a ++ .entered t :: (b ++ .entered u :: c) → Ends t b

/-- No access ever starts in this history. -/
def Dead (outs : List Out) : Prop := ∀ t, .entered t ∉ outs

/-- The coroutine waits for the token. -/
def Waiting (s : State) (t : Nat) : Prop := s.mb.tasks t = .getWait ∨ s.mb.tasks t = .getWoken

end Verif.RegAtomic
