/-! # Executions of a transition system given by a partial step function -/
namespace Paladin
namespace Lts

/-- The state after the labels `ls`, if every step is possible. No code of its own: executions of the models, each of which cites the code. -/
def run (step : σ → ℓ → Option σ) (s : σ) : List ℓ → Option σ
  | [] => some s
  | l :: ls => (step s l).bind fun s' => run step s' ls

end Lts
end Paladin
