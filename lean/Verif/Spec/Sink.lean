import Verif.Model.Sink
/- What is to be expected of writing to a sink. -/
namespace LNlp

/-- the sink takes these texts, one after the other -/
def Takes (snk : Sink) (texts : List Str) : Prop := ∀ a s b, texts = a ++ s :: b → snk a s = .taken

/-- `s` is the first text the sink does not take; before it, it was given `a` -/
def StopsAt (snk : Sink) (texts a : List Str) (s : Str) : Prop := Takes snk a ∧ snk a s ≠ .taken ∧ a ++ [s] <+: texts

end LNlp
