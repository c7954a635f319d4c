import Verif.Spec.WireDepth
import Verif.Proofs.Wire
/-! # The unfoldings of a recursive type -/
namespace Paladin
namespace Wire

theorem listTy_wf : ∀ n, (listTy n).WF
  | 0 => ⟨by decide +kernel, trivial⟩
  | n + 1 => ⟨(by decide +kernel : NamesOk ["Nil", "Cons"]), ⟨(by decide : 2 < 2 ^ 32), by simp [Ty.WF], listTy_wf n, trivial⟩, trivial⟩

theorem listTy_flat : ∀ n, (listTy n).NoNestedOption
  | 0 => trivial
  | n + 1 => ⟨⟨trivial, listTy_flat n, trivial⟩, trivial⟩

theorem listVal_levels : ∀ (n : Nat) (l : List (Ty.uint 8).den), l.length ≤ n → (listTy n).levels (listVal n l) = 2 * l.length + 1
  | 0, l, h => by
    obtain rfl : l = [] := List.length_eq_zero_iff.1 (Nat.le_zero.1 h)
    rfl
  | n + 1, [], _ => rfl
  | n + 1, a :: l, h => by
    have ih := listVal_levels n l (by simpa using h)
    change max 0 (max ((listTy n).levels (listVal n l)) 0) + 1 + 1 = _
    rw [ih, List.length_cons]
    omega

theorem listVal_cbor : ∀ (n : Nat) (l : List (Ty.uint 8).den), l.length ≤ n → Cbor.enc (listTy n) (listVal n l) = listCbor l
  | 0, l, h => by
    obtain rfl : l = [] := List.length_eq_zero_iff.1 (Nat.le_zero.1 h)
    decide +kernel
  | n + 1, [], _ => by
    change Cbor.encText "Nil" = _
    decide +kernel
  | n + 1, a :: l, h => by
    have ih := listVal_cbor n l (by simpa using h)
    have e : (Cbor.Header.map 1).enc ++ Cbor.encText "Cons" ++ (Cbor.Header.array 2).enc = [0xa1, 0x64, 0x43, 0x6f, 0x6e, 0x73, 0x82] := by decide +kernel
    change (Cbor.Header.map 1).enc ++ Cbor.encText "Cons" ++ ((Cbor.Header.array 2).enc ++ (Cbor.enc (.uint 8) a ++ (Cbor.enc (listTy n) (listVal n l) ++ []))) = _
    rw [ih, listCbor, ← e]
    simp only [List.append_assoc, List.append_nil]

theorem listVal_postcard : ∀ (n : Nat) (l : List (Ty.uint 8).den), l.length ≤ n → Postcard.enc (listTy n) (listVal n l) = listPostcard l
  | 0, l, h => by
    obtain rfl : l = [] := List.length_eq_zero_iff.1 (Nat.le_zero.1 h)
    decide +kernel
  | n + 1, [], _ => by
    change Postcard.encVar 0 = _
    decide +kernel
  | n + 1, a :: l, h => by
    have ih := listVal_postcard n l (by simpa using h)
    have e : Postcard.encVar 1 = [1] := by decide +kernel
    change Postcard.encVar 1 ++ (Postcard.enc (.uint 8) a ++ (Postcard.enc (listTy n) (listVal n l) ++ [])) = _
    rw [ih, listPostcard, e]
    simp only [List.append_nil, List.cons_append, List.nil_append]

end Wire
end Paladin
