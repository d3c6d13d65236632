import Verif.Model.Snakes

/-!
# Model of the overview plots, `examples/plot_hidden_short_snakes_typed_gen.py`
-/

namespace Verif.Snakes

open Verif.Common

/-- Length of the slice `a:a+n` of an axis of length `len`. `examples/plot_hidden_short_snakes_typed_gen.py` line 179. -/
def sliceLength (len a n : ℕ) : ℕ := min (a + n) len - a

/-- `allimg[ih:ih+h, iw:iw+w, :] = img`, `examples/plot_hidden_short_snakes_typed_gen.py` line 179. The slices end with the array; an
image of another size than the slices raises `ValueError`, but for axes of length one, which are repeated. -/
def pasteImage (page img : Pict) (ih iw : ℕ) : Except PyErr Pict :=
  if (sliceLength page.h ih img.h ≠ img.h ∧ img.h ≠ 1) ∨ (sliceLength page.w iw img.w ≠ img.w ∧ img.w ≠ 1) then .error .valueError
  else .ok ⟨page.h, page.w, fun i j c =>
    if ih ≤ i ∧ i < ih + sliceLength page.h ih img.h ∧ iw ≤ j ∧ j < iw + sliceLength page.w iw img.w then img.get (i - ih) (j - iw) c
    else page.get i j c⟩

/-- The loop over the images of a page, `examples/plot_hidden_short_snakes_typed_gen.py` lines 175-183: the third argument is `i_img`.
Images have three channels, so the assertion holds. -/
def pageLoop (N nh : ℕ) : List Pict → ℕ → ℕ → ℕ → Pict → Except PyErr Pict
  | [], _, _, _, page => .ok page
  | img :: rest, k, ih, iw, page => do
    let page' ← pasteImage page img ih iw
    if k % nh = nh - 1 then pageLoop N nh rest (k + 1) (ih + N) 0 page' else pageLoop N nh rest (k + 1) ih (iw + N) page'

/-- The loop over pages, `examples/plot_hidden_short_snakes_typed_gen.py` lines 171-185: the arrays given to `plot_snake`. The first
argument bounds the number of rounds; `none`: more rounds. -/
def pagesLoop (N nv nh : ℕ) : ℕ → List Pict → Except PyErr (Option (List Pict))
  | _, [] => .ok (some [])
  | 0, _ :: _ => .ok none
  | n + 1, img :: rest => do
    let page ← pageLoop N nh ((img :: rest).take (nv * nh)) 0 0 0 ⟨N * nv, N * nh, fun _ _ _ => 0⟩
    let r ← pagesLoop N nv nh n ((img :: rest).drop (nv * nh))
    .ok (r.map fun pages => page :: pages)

/-- `plot_many_snakes`, `examples/plot_hidden_short_snakes_typed_gen.py` lines 165-185, with at most as many pages as images: `none` if
that does not end, as without rows or columns. -/
def plotManySnakes (lX : List Pict) (nv nh ncell : ℕ) : Except PyErr (Option (List Pict)) := pagesLoop (ncell + 1) nv nh lX.length lX

/-- `_y[-1]`; of no labels it raises `IndexError`. `examples/plot_hidden_short_snakes_typed_gen.py` lines 195-196. -/
def lastLabel (y : List ℤ) : Except PyErr ℤ :=
  match y.getLast? with
  | some a => .ok a
  | none => .error .indexError

/-- The loop of `plot_mistakes`, `examples/plot_hidden_short_snakes_typed_gen.py` lines 191-198: the images of the two kinds in the order
of the samples. `zip` ends with the shortest list. -/
def mistakesLoop (ncell : ℕ) : List (List ℤ) → List (List ℤ) → List Pict → List Pict → List Pict → Except PyErr (List Pict × List Pict)
  | r :: refs, p :: preds, x :: xs, no, yes =>
    if r.length ≠ p.length then .error .assertionError
    else if r.length ≠ x.h * x.w * 3 / 3 + 1 then .error .assertionError
    else do
      let a ← lastLabel r
      if a ≠ ncell + 1 ∧ a ≠ ncell + 2 then .error .assertionError
      else do
        let b ← lastLabel p
        if a = b then mistakesLoop ncell refs preds xs no yes
        else if a - ncell - 1 = 0 then mistakesLoop ncell refs preds xs (no ++ [x]) yes
        else mistakesLoop ncell refs preds xs no (yes ++ [x])
  | _, _, _, no, yes => .ok (no, yes)

/-- `plot_mistakes`, `examples/plot_hidden_short_snakes_typed_gen.py` lines 187-203: what is plotted, first for images without snakes,
then for those with snakes. The overviews are made for the default of ten cells, whatever `ncell` is. -/
def plotMistakes (refs preds : List (List ℤ)) (xs : List Pict) (ncell : ℕ) :
    Except PyErr (Option (List Pict) × Option (List Pict)) := do
  let m ← mistakesLoop ncell refs preds xs [] []
  let a ← plotManySnakes m.1 10 20 10
  let b ← plotManySnakes m.2 10 20 10
  .ok (a, b)

end Verif.Snakes
