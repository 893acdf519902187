import Verif.Proofs.DatasIO
import Verif.Props.Datas

/-! # C52: files of features -/

namespace Ppocr.Props
open Ppocr Spec

/-- **C52**: the program reads back the table of features that it wrote. `Fits`: the columns are those of the
program and of one size, and the values are of the types of the columns. The contexts, which hold no features, are
new ones. -/
theorem C52_round_trip (d : Datas) (h : d.Fits) :
    datasFromFile (datasWrite d) = .ok ⟨d.tables, Ctxs.fresh⟩ := by
  unfold datasFromFile
  rw [datasRead_write h]
  rfl

/-- The features of images of a reasonable size make a table of this kind. -/
theorem loaded_fits {imgs : List Image} {d : Datas} (h : ∀ i ∈ imgs, Sized i) (hn : imgs.length < 2 ^ 64)
    (hd : Datas.empty.loadAll imgs = .ok d) : d.Fits ∧ d.size = imgs.length := by
  obtain ⟨d', e, hs, hv⟩ := C27_registry imgs h
  rw [hd, Res.ok.injEq] at e
  subst e
  have hsize : d.size = imgs.length := by
    unfold Datas.size
    cases hd : d.tables with
    | nil => rw [hd] at hs; cases hs
    | cons u us => simp only []; rw [(hv u (by rw [hd]; simp)).1]
  refine ⟨⟨hs, ?_, ?_, ?_⟩, hsize⟩
  · rw [hsize]
    simp only [maxS]
    omega
  · intro t ht
    rw [(hv t ht).1, hsize]
  · intro t ht v hm
    obtain ⟨hl, hk⟩ := hv t ht
    obtain ⟨k, hk1, hk2⟩ := List.mem_iff_getElem.1 hm
    obtain ⟨i, hi⟩ : ∃ i, imgs[k]? = some i := ⟨imgs[k]'(by omega), List.getElem?_eq_getElem (by omega)⟩
    obtain ⟨r, hr, _⟩ := (h i (List.mem_of_getElem? hi)).rotate
    obtain ⟨v', h1, h2⟩ := hk k i r hi hr
    rw [List.getElem?_eq_getElem hk1, Option.some.injEq, hk2] at h1
    subst h1
    exact feature_fits h2

/-- **C52** for the tables that the program makes: the features of any images of a reasonable size survive. -/
theorem C52_loaded (imgs : List Image) (h : ∀ i ∈ imgs, Sized i) (hn : imgs.length < 2 ^ 64) :
    ∃ d, Datas.empty.loadAll imgs = .ok d ∧ datasFromFile (datasWrite d) = .ok ⟨d.tables, Ctxs.fresh⟩ := by
  obtain ⟨d, e, _⟩ := C27_registry imgs h
  exact ⟨d, e, C52_round_trip d (loaded_fits h hn e).1⟩

/-- A file cut after its first number is accepted: the first column has one value, most others have none, so that
the columns no longer have the same size. -/
theorem C52_cut_file : ∃ d, datasFromFile [49, 10, 55] = .ok d ∧ d.size = 1 ∧
    (d.tables.map fun t => t.vals.length) = [1, 1] ++ List.replicate 23 0 :=
  ⟨_, rfl, by decide, by decide⟩

/-- A file whose count does not fit in 64 bits: alone it is accepted, as a table without glyphs; with anything but digits
behind it the program throws. -/
theorem C52_count_too_great (n : Nat) (hn : 2 ^ 64 ≤ n) :
    (∃ d, datasFromFile (showNat n) = .ok d ∧ d.size = 0) ∧
    ∀ c t, isDec c = false → datasFromFile (showNat n ++ c :: t) = .throw := by
  have key : ∀ r : List Nat, (∀ c t, r = c :: t → isDec c = false) →
      datasFromFile (showNat n ++ r) = if r.isEmpty then
        .ok ⟨(simpleStrats ++ complexStrats ++ exclusiveStrats).map fun f => ⟨f, []⟩, Ctxs.fresh⟩ else .throw := by
    intro r hr
    unfold datasFromFile datasRead
    have e := uint_great (max := maxS) (n := n) (old := 0) (p := []) (r := r) (ws := true) (by simp only [maxS]; omega)
      (by simp) (by simp) hr
    rw [List.nil_append] at e
    unfold IS.of
    simp only [e]
    rw [tablesRead_failed _ _ _ rfl]
    unfold checkEof
    simp only
    split <;> rfl
  refine ⟨⟨⟨(simpleStrats ++ complexStrats ++ exclusiveStrats).map fun f => ⟨f, []⟩, Ctxs.fresh⟩, ?_, rfl⟩, fun c t hc => ?_⟩
  · have := key [] (by simp)
    rw [List.append_nil] at this
    rw [this]
    rfl
  · rw [key (c :: t) (by rintro _ _ ⟨⟩; exact hc)]
    rfl

/-- `18446744073709551616` is a table without glyphs. -/
example : ∃ d, datasFromFile [49, 56, 52, 52, 54, 55, 52, 52, 48, 55, 51, 55, 48, 57, 53, 53, 49, 54, 49, 54] = .ok d ∧ d.size = 0 :=
  (by decide +kernel : showNat (2 ^ 64) = [49, 56, 52, 52, 54, 55, 52, 52, 48, 55, 51, 55, 48, 57, 53, 53, 49, 54, 49, 54]) ▸
    (C52_count_too_great (2 ^ 64) (Nat.le_refl _)).1

/-- The three types of columns: a number, an array of alternations, a vector; `1 50 \n1 0 2 …`. -/
example : tableWrite ⟨(.propZone, .img), [.arr [50, 50], .arr []]⟩ = [50, 32, 53, 48, 32, 53, 48, 32, 48, 32, 10] ∧
    tableWrite ⟨(.zone, .img), [.arr [1, 0, 2, 3, 0, 0, 10]]⟩ =
      [49, 32, 48, 32, 50, 32, 51, 32, 48, 32, 48, 32, 49, 48, 32, 10] ∧
    valuesRead .vec 2 (IS.of [50, 32, 53, 48, 32, 53, 48, 32, 48, 32, 10]) =
      ([.arr [50, 50], .arr []], ⟨[32, 10], false, false, true⟩) := by decide

/-- A whole table: the features of one image. -/
example : (do
    let d ← Datas.empty.loadAll [smallT]
    let e ← datasFromFile (datasWrite d)
    return (decide (e.tables = d.tables), (datasWrite d).length)) = .ok (true, 149) := by decide +kernel

end Ppocr.Props
