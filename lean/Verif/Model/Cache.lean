import Verif.Model.ImageCompare

/-!
# The cache of letter images

`image_cache_type_t` (`src/ppocr/ocr2/cache.hpp` L31-39): a `std::map` from images to candidate lists, ordered by
`def_img_compare`. The map is the list of its nodes in the order of their keys; a node is its key and the place of its
candidate list in a list `st` of all candidate lists, since a reference to the list of a node stays valid.
`std::map` compares the key with the nodes on a path of a balanced tree only; here it is compared with the nodes from the
first one on. Both stop at the first node whose key is not less.
-/

namespace Ppocr

/-- `images_cache.find(k)`. -/
def cacheFind (k : Image) : List (Image × Nat) → Res (Option Nat)
  | [] => .ok none
  | (a, r) :: m => do
    let lt ← imageLess a k
    if lt then cacheFind k m
    else do
      let gt ← imageLess k a
      return if gt then none else some r

/-- `images_cache.emplace(k, list)` where `r` is the place for the list of a new node: the nodes, and the place of the list
of the node with key `k`. Nothing is added when there is one already. -/
def cacheEmplace (k : Image) (r : Nat) : List (Image × Nat) → Res (List (Image × Nat) × Nat)
  | [] => .ok ([(k, r)], r)
  | (a, q) :: m => do
    let lt ← imageLess a k
    if lt then do
      let (m, p) ← cacheEmplace k r m
      return ((a, q) :: m, p)
    else do
      let gt ← imageLess k a
      return if gt then ((k, r) :: (a, q) :: m, r) else ((a, q) :: m, q)

end Ppocr
