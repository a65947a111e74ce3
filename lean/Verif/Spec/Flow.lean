import Verif.Model.Cmd

/-!
# Predicates on programs with control flow
-/

namespace Obake

variable {X S L : Type}

/-- Every action of the program satisfies `Q`. -/
def Cmd.Each (Q : S → Prop) : Cmd S L → Prop
  | .act s => ∀ l, Q (s l)
  | .seq c d => c.Each Q ∧ d.Each Q
  | .ite _ c d => c.Each Q ∧ d.Each Q
  | .while _ c => c.Each Q
  | .tryCatch c _ d => c.Each Q ∧ d.Each Q
  | _ => True

/-- The state of the outcome, if there is one, satisfies `I`. -/
def Out.Has (I : X → Prop) : Out X L → Prop
  | .normal x _ => I x
  | .thrown _ x _ => I x
  | .timeout => True

end Obake
