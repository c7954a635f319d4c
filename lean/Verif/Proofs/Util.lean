/-! # Small tactics shared by the proofs -/
namespace Paladin

/-- Prove a list permutation by counting; the caller may pass extra simp lemmas and hypotheses. -/
macro "perm_count" "[" ts:Lean.Parser.Tactic.simpLemma,* "]" : tactic =>
  `(tactic| (classical
             rw [List.perm_iff_count]
             intro a_
             simp [List.count_cons, List.count_append, $ts,*] <;> omega))

macro "perm_count" : tactic => `(tactic| perm_count [])

end Paladin
