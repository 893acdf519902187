import Verif.Model.Command

/-!
# The tool `box`

`main/box.cpp` and `operator<<` of `Index`, `Bounds` and `Box`. As in `Model/Command.lean` an argument is the list of its bytes,
`av[0]` is left out, and so is what goes to `std::cerr`. The fill character that showing an image leaves behind is never
used, for the width is 0 whenever something else is shown. Showing the threshold is assumed not to set `errno`.
-/

namespace Ppocr

/-- `operator<<(std::ostream &, Box const &)`, `box.cpp` (in `box_char`) L26-28 with `coordinate.cpp` L26-32. -/
def boxShow (b : Box) : List Nat :=
  showNat b.x ++ 32 :: (showNat b.y ++ 32 :: (showNat b.w ++ 32 :: showNat b.h))

/-- The line above a picture: `"\nbox(" << cbox << ")\n"`, `box.cpp` L57. -/
def boxLine (b : Box) : List Nat := [10, 98, 111, 120, 40] ++ boxShow b ++ [41, 10]

/-- The loop, `box.cpp` L56-59. The line above is shown before the picture is cut out (C++17). -/
def boxLoop (i : Image) : Nat → Nat → List Nat → Written
  | 0, _, out => ⟨out, .diverge⟩
  | fuel + 1, x, out =>
    match makeBox i x 0 i.bounds with
    | .ok b =>
      if b.truthy then
        match (do let a ← i.section b.x b.y b.bounds; imageShow a) with
        | .ok t => boxLoop i fuel (uadd b.x b.w) (out ++ boxLine b ++ t)
        | r => ⟨out ++ boxLine b, r.void⟩
      else ⟨out, .ok ()⟩
    | r => ⟨out, r.void⟩

/-- One file, `box.cpp` L49-60. -/
def boxFile (lum : Nat) (name : List Nat) (e : FileEnv) : Written :=
  match loadImage e lum with
  | .ok i => boxLoop i (i.bounds.w + 1) 0 (name ++ [58, 10])
  | r => ⟨[], r.void⟩

/-- The files, `box.cpp` L48-60. -/
def boxFiles (D : Disk) (lum : Nat) : List (List Nat) → Written
  | [] => ⟨[], .ok ()⟩
  | n :: ns =>
    let r := boxFile lum n (D.image n)
    match r.ended with
    | .ok () => let q := boxFiles D lum ns; ⟨r.out ++ q.out, q.ended⟩
    | _ => r

/-- `box.cpp` L43-63: what is left of the arguments is the names. -/
def boxNames (D : Disk) (lum : Nat) (ns : List (List Nat)) : Ran :=
  if ns.length + 1 < 2 then ⟨[], .ok 1⟩ else (boxFiles D lum ns).ran

/-- `main` of `box.cpp` L27-63. The option is looked at as soon as there is one argument; without a second one `av[2]` is a
null pointer, which `std::strtoul` must not be given. The threshold is shown before it is checked. -/
def boxMain (D : Disk) : List (List Nat) → Ran
  | o :: as =>
    if o = [45, 108] then
      match as with
      | [] => ⟨[], .ub⟩
      | v :: as =>
        let c := strtoul v
        let shown := [32, 35, 35, 32, 108, 117, 109, 105, 110, 97, 110, 99, 101, 58, 32] ++ showNat (c.value % W32) ++ [10]
        if c.rest = v ∨ c.rest ≠ [] ∨ c.error = true then ⟨shown, .ok 2⟩
        else
          let r := boxNames D (c.value % W32) as
          ⟨shown ++ r.out, r.code⟩
    else boxNames D 128 (o :: as)
  | [] => boxNames D 128 []

end Ppocr
