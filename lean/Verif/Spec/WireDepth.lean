import Verif.Spec.Wire
/-!
# Specification: a recursive type and its values

`enum List { Nil, Cons(u8, Box<List>) }` with serde's derives. A recursive type has no finite description as a `Ty`; its `n`-th unfolding has the lists of at most `n` elements.
-/
namespace Paladin
namespace Wire

/-- The unfoldings of `List`. -/
def listTy : Nat → Ty
  | 0 => .enum (.unit "Nil" .nil)
  | n + 1 => .enum (.unit "Nil" (.payload "Cons" (.tuple (.cons "0" (.uint 8) (.cons "1" (listTy n) .nil))) .nil))

/-- The list with the given elements (as far as the unfolding goes). -/
def listVal : (n : Nat) → List (Ty.uint 8).den → (listTy n).den
  | 0, _ => .inl ()
  | _ + 1, [] => .inl ()
  | n + 1, a :: l => .inr (.inl (a, listVal n l, ()))

/-- How CBOR writes a list: `Nil` as its name, `Cons` as a map from its name to the pair. -/
def listCbor : List (Ty.uint 8).den → Buf
  | [] => [0x63, 0x4e, 0x69, 0x6c]
  | a :: l => [0xa1, 0x64, 0x43, 0x6f, 0x6e, 0x73, 0x82] ++ Cbor.enc (.uint 8) a ++ listCbor l

/-- How Postcard writes it: the index of the variant, then its content. -/
def listPostcard : List (Ty.uint 8).den → Buf
  | [] => [0]
  | a :: l => 1 :: Postcard.enc (.uint 8) a ++ listPostcard l

end Wire
end Paladin
