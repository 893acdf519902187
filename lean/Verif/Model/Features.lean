import Verif.Model.Image

/-!
# Scalar image features

Model of `src/ppocr/strategies/{density,proportionality,hbar,hdirection,hdirection2,hgravity,
hgravity2,dvdirection,dvdirection2,dvgravity,dvgravity2}.cpp` and of the context functions they use
(`strategies/utils/*.hpp`).  The second image argument and the (cached) context are not represented
here: `ctx.compute(img)` is the freshly computed value; the cache itself is modelled in
`Model/Datas.lean` (`Cache`, `Ctxs`).

A scan `for (; p != ep; ++p)` with `p` already behind `ep` runs off the buffer: `ub`.
-/

namespace Ppocr

/-- `for (n pixels from p) if (is_pix_letter(*p)) c += k;` the inner loop shared by the scans below. -/
def addLetters (data : List Pixel) (k : Nat) : Nat → Nat → Nat → Res Nat
  | 0, _, c => .ok c
  | n + 1, p, c => do
    let v ← rd data p
    addLetters data k n (p + 1) (if isLetter v then uadd c k else c)

/-- `for (; p != ep; ++p) if (is_pix_letter(*p)) c += k;`. -/
def scanLetters (data : List Pixel) (k p ep c : Nat) : Res Nat :=
  if ep < p then .ub else addLetters data k (ep - p) p c

/-- `density::load` (density.cpp L25-36). -/
def densityLoad (i : Image) : Res Nat := do
  let c ← scanLetters i.data 1 0 i.bounds.area 0
  udiv (umul c 100) i.bounds.area

/-- `proportionality::load` (proportionality.cpp L25-26). -/
def proportionalityLoad (i : Image) : Res Nat :=
  udiv (umul i.bounds.w 100) (uadd i.bounds.w i.bounds.h)

/-- `std::all_of(p, p+n, is_pix_letter_fn())`. -/
def allLetters (data : List Pixel) : Nat → Nat → Res Bool
  | 0, _ => .ok true
  | n + 1, p => do
    let v ← rd data p
    if isLetter v then allLetters data n (p + 1) else return false

/-- Loop of `hbar::load` (hbar.cpp L31-42). -/
def hbarLoop (data : List Pixel) (w e : Nat) : Nat → Nat → Bool → Nat → Res Nat
  | 0, _, _, _ => .diverge
  | fuel + 1, p, prev, n =>
    if p = e then .ok n
    else do
      let full ← allLetters data w p
      hbarLoop data w e fuel (p + w) full (if full && !prev then uadd n 1 else n)

/-- `hbar::load` (hbar.cpp L26-44). -/
def hbarLoad (i : Image) : Res Nat :=
  hbarLoop i.data i.bounds.w i.bounds.area (i.bounds.area + 1) 0 false 0

/-- `struct TopBottom` (utils/top_bottom.hpp L24). -/
structure TopBottom where
  top : Nat
  bottom : Nat
  deriving Repr, DecidableEq

/-- First pixel of the bottom half: the middle row of an odd height is skipped
(e.g. horizontal_direction.hpp L51-53). -/
def bottomStart (b : Bounds) (ep : Nat) : Nat := if b.h % 2 = 1 then ep + b.w else ep

/-- `horizontal_direction_fn::compute` (horizontal_direction.hpp L41-59). -/
def horizontalDirection (i : Image) : Res TopBottom := do
  let ep ← i.dataAt 0 (i.bounds.h / 2)
  let top ← scanLetters i.data 1 0 ep 0
  let bottom ← scanLetters i.data 1 (bottomStart i.bounds ep) i.bounds.area 0
  return ⟨top, bottom⟩

/-- Loop of `horizontal_box_gravity` (horizontal_gravity.hpp L36-49). -/
def boxGravityLoop (data : List Pixel) (w ep : Nat) (isTop : Bool) :
    Nat → Nat → Nat → Nat → Res Nat
  | 0, _, _, _ => .diverge
  | fuel + 1, p, h, g =>
    if p = ep then .ok g
    else do
      let g ← addLetters data h w p g
      boxGravityLoop data w ep isTop fuel (p + w) (if isTop then usub h 1 else uadd h 1) g

/-- `horizontal_box_gravity` (horizontal_gravity.hpp L32-51); `bh` is the height of the half. -/
def boxGravity (data : List Pixel) (w bh p ep : Nat) (isTop : Bool) : Res Nat :=
  boxGravityLoop data w ep isTop (ep + 1) p (if isTop then bh else 1) 0

/-- `horizontal_gravity_fn::compute` (horizontal_gravity.hpp L66-77). -/
def horizontalGravity (i : Image) : Res TopBottom := do
  let bh := i.bounds.h / 2
  let ep ← i.dataAt 0 bh
  let top ← boxGravity i.data i.bounds.w bh 0 ep true
  let bottom ← boxGravity i.data i.bounds.w bh (bottomStart i.bounds ep) i.bounds.area false
  return ⟨top, bottom⟩

/-- `wdiv2 - w / k / 2` (diagonal_vertical_direction.hpp L37, L73;
diagonal_vertical_gravity.hpp L36, L60). -/
def diagX (w k : Nat) : Res Nat := do
  let q ← udiv w k
  return usub (w / 2) (q / 2)

/-- `!is_top ? bnd.height() - ih : 1 + ih`. -/
def diagK (bh : Nat) (isTop : Bool) (ih : Nat) : Nat := if isTop then uadd 1 ih else usub bh ih

/-- Loop of `count_diagonal_vertical_direction` (diagonal_vertical_direction.hpp L36-45). -/
def diagDirLoop (data : List Pixel) (w bh ep : Nat) (isTop : Bool) : Nat → Nat → Nat → Nat → Res Nat
  | 0, _, _, _ => .diverge
  | fuel + 1, p, ih, d =>
    if p = ep then .ok d
    else do
      let x ← diagX w (diagK bh isTop ih)
      let d ← scanLetters data 1 (p + x) (p + w - x) d
      diagDirLoop data w bh ep isTop fuel (p + w) (uadd ih 1) d

/-- `diagonal_vertical_direction_fn::compute` (diagonal_vertical_direction.hpp L92-104). -/
def diagDirection (i : Image) : Res TopBottom := do
  let bh := i.bounds.h / 2
  let ep ← i.dataAt 0 bh
  let top ← diagDirLoop i.data i.bounds.w bh ep true (ep + 1) 0 0 0
  let bottom ← diagDirLoop i.data i.bounds.w bh i.bounds.area false (i.bounds.area + 1)
    (bottomStart i.bounds ep) 0 0
  return ⟨top, bottom⟩

/-- Loop of `diagonal_vertical_direction_area` (diagonal_vertical_direction.hpp L72-75). -/
def diagDirAreaLoop (w ep : Nat) : Nat → Nat → Nat → Nat → Res Nat
  | 0, _, _, _ => .diverge
  | fuel + 1, p, ih, a =>
    if p = ep then .ok a
    else do
      let x ← diagX w (uadd 1 ih)
      diagDirAreaLoop w ep fuel (p + w) (uadd ih 1) (uadd a (usub w (umul x 2)))

/-- `diagonal_vertical_direction_area` (diagonal_vertical_direction.hpp L63-77). -/
def diagDirArea (i : Image) : Res Nat := do
  let ep ← i.dataAt 0 (i.bounds.h / 2)
  let a ← diagDirAreaLoop i.bounds.w ep (ep + 1) 0 0 0
  return umul a 2

/-- Loop of `count_diagonal_vertical_gravity` (diagonal_vertical_gravity.hpp L35-45). -/
def diagGravLoop (data : List Pixel) (w bh ep : Nat) (isTop : Bool) :
    Nat → Nat → Nat → Nat → Nat → Res Nat
  | 0, _, _, _, _ => .diverge
  | fuel + 1, p, ih, coef, g =>
    if p = ep then .ok g
    else do
      let x ← diagX w (diagK bh isTop ih)
      let g ← scanLetters data coef (p + x) (p + w - x) g
      diagGravLoop data w bh ep isTop fuel (p + w) (uadd ih 1)
        (if isTop then usub coef 1 else uadd coef 1) g

/-- `diagonal_vertical_gravity_fn::compute` (diagonal_vertical_gravity.hpp L79-92). -/
def diagGravity (i : Image) : Res TopBottom := do
  let bh := i.bounds.h / 2
  let ep ← i.dataAt 0 bh
  let top ← diagGravLoop i.data i.bounds.w bh ep true (ep + 1) 0 0 bh 0
  let bottom ← diagGravLoop i.data i.bounds.w bh i.bounds.area false (i.bounds.area + 1)
    (bottomStart i.bounds ep) 0 1 0
  return ⟨top, bottom⟩

/-- Loop of `diagonal_vertical_gravity_area` (diagonal_vertical_gravity.hpp L59-62). -/
def diagGravAreaLoop (w bh ep : Nat) : Nat → Nat → Nat → Nat → Res Nat
  | 0, _, _, _ => .diverge
  | fuel + 1, p, ih, a =>
    if p = ep then .ok a
    else do
      let x ← diagX w (usub bh ih)
      diagGravAreaLoop w bh ep fuel (p + w) (uadd ih 1)
        (uadd a (umul (usub w (umul x 2)) (uadd ih 1)))

/-- `diagonal_vertical_gravity_area` (diagonal_vertical_gravity.hpp L50-64). -/
def diagGravArea (i : Image) : Res Nat := do
  let bh := i.bounds.h / 2
  let ep ← i.dataAt 0 bh
  let a ← diagGravAreaLoop i.bounds.w bh ep (ep + 1) 0 0 0
  return umul a 2

/-- `(sum + top - bottom) * 100 / den`, left to right on `unsigned`. -/
def percent (base : Nat) (t : TopBottom) (den : Nat) : Res Nat :=
  udiv (umul (usub (uadd base t.top) t.bottom) 100) den

/-- The common body of `hdirection::load`, `hgravity::load`, `dvdirection::load` and
`dvgravity::load` (hdirection.cpp L27-29 and its three copies). -/
def ratio200 (t : TopBottom) : Res Nat :=
  let sum := uadd t.top t.bottom
  if sum ≠ 0 then percent sum t sum else .ok 100

/-- `hdirection::load` (hdirection.cpp L25-30). -/
def hdirectionLoad (i : Image) : Res Nat := do ratio200 (← horizontalDirection i)
/-- `hgravity::load` (hgravity.cpp L25-30). -/
def hgravityLoad (i : Image) : Res Nat := do ratio200 (← horizontalGravity i)
/-- `dvdirection::load` (dvdirection.cpp L25-30). -/
def dvdirectionLoad (i : Image) : Res Nat := do ratio200 (← diagDirection i)
/-- `dvgravity::load` (dvgravity.cpp L25-30). -/
def dvgravityLoad (i : Image) : Res Nat := do ratio200 (← diagGravity i)

/-- `hdirection2::load` (hdirection2.cpp L26-36). -/
def hdirection2Load (i : Image) : Res Nat :=
  let hby2 := i.bounds.h / 2
  if hby2 = 0 then .ok 50
  else do
    let area := umul hby2 i.bounds.w
    let t ← horizontalDirection i
    percent area t (umul area 2)

/-- `hgravity2::load` (hgravity2.cpp L26-36). -/
def hgravity2Load (i : Image) : Res Nat :=
  let hby2 := i.bounds.h / 2
  if hby2 = 0 then .ok 50
  else do
    let area := umul (umul hby2 (uadd hby2 1) / 2) i.bounds.w
    let t ← horizontalGravity i
    percent area t (umul area 2)

/-- `dvdirection2::load` (dvdirection2.cpp L25-35). -/
def dvdirection2Load (i : Image) : Res Nat := do
  let area ← diagDirArea i
  if area = 0 then return 50
  else do
    let t ← diagDirection i
    percent (uadd t.top t.bottom) t area

/-- `dvgravity2::load` (dvgravity2.cpp L25-35). -/
def dvgravity2Load (i : Image) : Res Nat := do
  let area ← diagGravArea i
  if area = 0 then return 50
  else do
    let t ← diagGravity i
    percent (uadd t.top t.bottom) t area

end Ppocr
