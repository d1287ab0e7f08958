import Mathlib.Analysis.SpecialFunctions.Complex.Circle
import Mathlib.Analysis.Real.Sqrt

/-!
# Model of the Fourier transform and of the crossover in the Fourier domain

Sources: `/repo/nevergrad/parametrization/transforms.py` (308-321) and `/repo/nevergrad/parametrization/mutation.py` (149-183,
207-219).

An axis of length `n` is a function of the natural numbers, of which the values below `n` only are looked at. The transforms of
numpy (`rfftn` and `irfftn` with `norm="ortho"`) are modelled by the sums they compute: one axis with any other axes (`β` below
is the type of the positions in the other axes), or the two axes of a two-dimensional array. Numbers are exact. More than two
transformed axes are not modelled. numpy ignores the imaginary parts of the first and of the last coefficients of a line
(`irfft`), as below.
-/

namespace NG
namespace Fourier

noncomputable section

variable {β : Type}

/-- The root of the unity of the transform of length `n`. Used by `fft` (transforms.py 318). -/
def root (n : ℕ) : ℂ := (Complex.exp (2 * Real.pi * Complex.I / n))⁻¹

/-- The complex transform of numpy along an axis, `norm="ortho"`: `rfftn` uses it for all the transformed axes but the last
(transforms.py 318). -/
def fft (n : ℕ) (y : ℕ → ℂ) (k : ℕ) : ℂ := (Real.sqrt n : ℂ)⁻¹ * ∑ j ∈ Finset.range n, y j * root n ^ (j * k)

/-- The inverse of the complex transform: `irfftn` uses it for all the transformed axes but the last (transforms.py 321). -/
def ifft (n : ℕ) (y : ℕ → ℂ) (j : ℕ) : ℂ := (Real.sqrt n : ℂ)⁻¹ * ∑ k ∈ Finset.range n, y k * (root n)⁻¹ ^ (j * k)

/-- The real transform along an axis (the last of the transformed axes): the coefficients `0, ..., n/2` (transforms.py 318). -/
def rfft (n : ℕ) (x : ℕ → ℝ) (k : ℕ) : ℂ := fft n (fun j => (x j : ℂ)) k

/-- The inverse of the real transform along an axis with `h + 1` coefficients, the length being `2 * h` (transforms.py 321). -/
def irfft (h : ℕ) (y : ℕ → ℂ) (j : ℕ) : ℝ :=
  (Real.sqrt (2 * h : ℕ))⁻¹ *
    ((y 0).re + (-1) ^ j * (y h).re + 2 * ∑ k ∈ Finset.Ico 1 h, (y k * (root (2 * h))⁻¹ ^ (j * k)).re)

/-- `Fourrier.forward` (314-318) along one axis: the length has to be even. -/
def forward1 (n : ℕ) (x : β → ℕ → ℝ) : Option (β → ℕ → ℂ) :=
  if n % 2 = 0 then some (fun b => rfft n (x b)) else none

/-- `Fourrier.backward` (320-321) along one axis with `m` coefficients. -/
def backward1 (m : ℕ) (y : β → ℕ → ℂ) : β → ℕ → ℝ := fun b => irfft (m - 1) (y b)

/-- `Fourrier.forward` (314-318) on the two axes of an array: the real transform of the last axis, then the complex one. -/
def forward2 (n p : ℕ) (x : ℕ → ℕ → ℝ) : Option (ℕ → ℕ → ℂ) :=
  if n % 2 = 0 ∧ p % 2 = 0 then some (fun k l => fft n (fun i => rfft p (x i) l) k) else none

/-- `Fourrier.backward` (320-321) on the two axes of an array with `n` lines of `m` coefficients: the inverse complex transform of
the first axis, then the inverse real one. -/
def backward2 (n m : ℕ) (y : ℕ → ℕ → ℂ) : ℕ → ℕ → ℝ :=
  fun i => irfft (m - 1) (fun l => ifft n (fun k => y k l) i)

/-- `randint(lo, hi)`: the draw, which has to be in the range; the call raises when the range is empty. Used in `crossover1`
(mutation.py 175, 215). -/
def randint (lo hi : Int) (draw : ℕ) : Option ℕ := if lo ≤ draw ∧ (draw : Int) < hi then some draw else none

/-- The size of the part (mutation.py 174-175): `maxSize` is the value given (or computed from the size of the array), `lim` the
least of the lengths of the axes minus one, and `draw` the draw. -/
def sizeOf (maxSize lim : Int) (draw : ℕ) : Option ℕ :=
  let m := min maxSize lim
  if m = 1 then some 1 else randint 1 m draw

/-- The start of the part on an axis of length `s` (`_make_slices`, mutation.py 213-215). -/
def startOf (s size draw : ℕ) : Option ℕ := if s ≤ 1 then none else randint 0 ((s : Int) - size) draw

/-- `Crossover._apply_array` (mutation.py 157-183) with `fft=True` and one axis of length `n` among any others. -/
def crossover1 (n : ℕ) (maxSize : Int) (size start : ℕ) (x y : β → ℕ → ℝ) : Option (β → ℕ → ℝ) := do
  let X ← forward1 n x
  let Y ← forward1 n y
  let m := n / 2 + 1
  let s ← sizeOf maxSize ((m : Int) - 1) size
  let a ← startOf m s start
  some (backward1 m (fun b k => if a ≤ k ∧ k < a + s then Y b k else X b k))

/-- `Crossover._apply_array` (mutation.py 157-183) with `fft=True` and the two axes of an array with `n` lines and `p` columns: the
part has the same size on the two axes. -/
def crossover2 (n p : ℕ) (maxSize : Int) (size start start' : ℕ) (x y : ℕ → ℕ → ℝ) : Option (ℕ → ℕ → ℝ) := do
  let X ← forward2 n p x
  let Y ← forward2 n p y
  let m := p / 2 + 1
  let s ← sizeOf maxSize (min ((n : Int) - 1) ((m : Int) - 1)) size
  let a ← startOf n s start
  let a' ← startOf m s start'
  some (backward2 n m (fun k l => if (a ≤ k ∧ k < a + s) ∧ (a' ≤ l ∧ l < a' + s) then Y k l else X k l))

/-- `Clipping(a_min=bounds[0], a_max=bounds[1]).forward` on a value (`_layered_recombine`, mutation.py 152-154). -/
def clip (lo hi : Option ℝ) (v : ℝ) : ℝ :=
  let v := match lo with
    | none => v
    | some a => max v a
  match hi with
  | none => v
  | some b => min v b

/-- `Crossover._layered_recombine` (mutation.py 149-155) with `fft=True` and one axis: the result is clipped to the bounds. -/
def recombine1 (lo hi : Option ℝ) (n : ℕ) (maxSize : Int) (size start : ℕ) (x y : β → ℕ → ℝ) : Option (β → ℕ → ℝ) :=
  (crossover1 n maxSize size start x y).map (fun c b j => clip lo hi (c b j))

end

end Fourier
end NG
