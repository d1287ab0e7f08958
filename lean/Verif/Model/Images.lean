/-
The image problems: nevergrad/functions/images/imagelosses.py 20-43 (`ImageLoss`, `SumAbsoluteDifferences`), 87-103 (`SumSquareDifferences`,
`HistogramDifference`), 134-146 (`Blur`), and nevergrad/functions/images/core.py 95-143 (`_generate_images`, `interpolate`, `_loss_with_pgan`), 181-240
(`ImageAdversarial`), 243-298 (`make_folder_functions`), 360-375 (`ImageFromPGAN`).

Simplifications. Numbers are exact. The networks (the classifier, the generator of images, the losses that are networks), the Laplacian and the resizing of cv2
are arguments. An image is the list of its pixels, row by row, each being the list of its channels. An error is `none`.
-/
import Mathlib.Algebra.Order.Field.Basic
import Mathlib.Analysis.SpecialFunctions.Log.Basic
import Mathlib.Data.List.Sort

namespace NG.Images

section
variable {R : Type} [Field R] [LinearOrder R] [IsStrictOrderedRing R]

/-- An image: its shape and its pixels. Used in imagelosses.py 28-32. -/
structure Img (R : Type) where
  h : Nat
  w : Nat
  c : Nat
  px : List (List R)

/-- The entries of an image in the order of `ravel` (imagelosses.py 41). -/
def Img.flat (x : Img R) : List R := x.px.flatten

/-- `ImageLoss.__init__` (imagelosses.py 24-32): the reference has values between 0 and 256, one of which is larger than 3; `min` fails without entries. -/
def makeRef (r : Img R) : Option (Img R) :=
  if r.flat ≠ [] ∧ (∀ v ∈ r.flat, 0 ≤ v) ∧ (∀ v ∈ r.flat, v ≤ 256) ∧ ∃ v ∈ r.flat, 3 < v then some r else none

/-- `assert x.shape == self.domain_shape` (imagelosses.py 41, 90, 98). -/
abbrev sameShape (x r : Img R) : Prop := x.h = r.h ∧ x.w = r.w ∧ x.c = r.c

/-- `SumAbsoluteDifferences` (imagelosses.py 38-43). -/
def sumAbs (r x : Img R) : Option R :=
  if sameShape x r then some ((List.zipWith (fun a b => |a - b|) x.flat r.flat).sum) else none

/-- `SumSquareDifferences` (imagelosses.py 87-92). -/
def sumSq (r x : Img R) : Option R :=
  if sameShape x r then some ((List.zipWith (fun a b => (a - b) ^ 2) x.flat r.flat).sum) else none

/-- `np.sum(x, 2).ravel()` (imagelosses.py 100-101): the gray levels of the pixels. -/
def gray (x : Img R) : List R := x.px.map List.sum

/-- `HistogramDifference` (imagelosses.py 95-103): the sum of the differences of the sorted gray levels. -/
def histogram (r x : Img R) : Option R :=
  if sameShape x r ∧ x.c = 3 then
    some ((List.zipWith (fun a b => a - b) ((gray x).insertionSort (· ≤ ·)) ((gray r).insertionSort (· ≤ ·))).sum)
  else none

/-- `.var()` of an array (imagelosses.py 146). -/
def variance (l : List R) : R := (l.map fun a => (a - l.sum / l.length) ^ 2).sum / l.length

/-- `Blur` (imagelosses.py 134-146). -/
def blurLoss (laplacian : Img R → List R) (x : Img R) : Option R := if x.c = 3 then some (-variance (laplacian x)) else none

/-- `_generate_images` (core.py 95-104, 365-375) for one output of the generator, as pixels: clamped, brought to the range of the pixels, and the order of the
channels reversed (in `Image` only, core.py 103). -/
def pixels (reversed : Bool) (out : List (List R)) : List (List R) :=
  out.map fun p =>
    let p := p.map fun v => (min (max v (-1)) 1 + 1) * (25599 / 100) / 2
    if reversed then p.reverse else p

/-- `interpolate` (core.py 106-112). -/
def interpolate (base target : List R) (k n : Nat) : List R :=
  if n = 1 then target
  else
    let coef1 : R := (k : R) / ((n : R) - 1)
    let coef2 : R := ((n : R) - 1 - k) / ((n : R) - 1)
    List.zipWith (fun a b => coef1 * a + coef2 * b) base target

/-- `movability` (core.py 122-126). -/
def movability (numImages i total : Nat) : R :=
  if 1 < numImages then 4 * (1 / 4 - ((i : R) / ((total : R) - 1) - 1 / 2) ^ 2) else 1 / 2

end

/-- `np.linalg.norm` (core.py 131). -/
noncomputable def norm (x : List ℝ) : ℝ := Real.sqrt ((x.map fun v => v ^ 2).sum)

/-- `num_total_images` (core.py 116-117). -/
def total (numImages : Nat) : Nat := (if numImages < 2 then 1 else 10) * numImages

/-- `moving` (core.py 127-132); `dim` is `self.dimension`, the size of the whole array. -/
noncomputable def moving (numImages dim : Nat) (x : List (List ℝ)) (i : Nat) : List ℝ :=
  let row := x[i / (if numImages < 2 then 1 else 10)]?.getD []
  row.map fun v => movability numImages i (total numImages) * Real.sqrt dim * v / (1 / 10 ^ 10 + norm row)

/-- The latent vector of image `i` (core.py 119-133). -/
noncomputable def latent (numImages dim : Nat) (initial target : List ℝ) (x : List (List ℝ)) (i : Nat) : List ℝ :=
  let m := moving numImages dim x i
  if numImages = 1 then m else List.zipWith (fun a b => a + b) (interpolate initial target i (total numImages)) m

/-- `_loss_with_pgan` (core.py 114-143): the sum of the losses of the images, `loss` being that of the image of a latent vector. -/
noncomputable def pganLoss (loss : List ℝ → Option ℝ) (numImages dim : Nat) (initial target : List ℝ) (x : List (List ℝ)) : Option ℝ :=
  (List.range (total numImages)).foldl
    (fun acc i => acc.bind fun s => (loss (latent numImages dim initial target x i)).map fun v => s + v) (some 0)

/-! ### Adversarial attacks -/

/-- The image of an attack, `torch.clamp(self.image + y, 0, 1)` (core.py 226-231). -/
noncomputable def attacked (image x : List ℝ) : List ℝ := List.zipWith (fun a b => min (max (a + b) 0) 1) image x

/-- `nn.CrossEntropyLoss` for one output and one label (core.py 204, 223): `none` for a label that is not a class. -/
noncomputable def crossEntropy (out : List ℝ) (label : Nat) : Option ℝ :=
  (out[label]?).map fun o => Real.log ((out.map Real.exp).sum) - o

/-- `_loss` (core.py 221-224). -/
noncomputable def advLoss (classifier : List ℝ → List ℝ) (image : List ℝ) (label : Nat) (targeted : Bool) (x : List ℝ) : Option ℝ :=
  (crossEntropy (classifier (attacked image x)) label).map fun v => v * (if targeted then 1 else -1)

/-- `torch.max(out, axis=1)` (core.py 238): the first class with the largest output. -/
noncomputable def argmax : List ℝ → Nat
  | [] => 0
  | a :: l => (l.foldl (fun (s : Nat × Nat × ℝ) v => if v > s.2.2 then (s.1 + 1, s.1 + 1, v) else (s.1 + 1, s.2.1, s.2.2)) (0, 0, a)).2.1

/-- `evaluation_function` (core.py 233-240): 1 as long as the attack has not worked. -/
noncomputable def advEval (classifier : List ℝ → List ℝ) (image : List ℝ) (label : Nat) (targeted : Bool) (x : List ℝ) : ℝ :=
  let pred := argmax (classifier (attacked image x))
  if (if targeted then pred ≠ label else pred = label) then 1 else 0

/-- `make_folder_functions` (core.py 243-298): the images and labels of the attacks made from a data set, in the order in which it is read: those of the first
hundred whose class is recognized. -/
noncomputable def folderFunctions (classifier : List ℝ → List ℝ) (data : List (List ℝ × Nat)) : List (List ℝ × Nat) :=
  (data.take 100).filter fun d => argmax (classifier d.1) = d.2

/-- The data set used without a folder (core.py 275-278): one black image, with the class that is recognized. -/
noncomputable def fakeData (classifier : List ℝ → List ℝ) (size : Nat) : List (List ℝ × Nat) :=
  [(List.replicate size 0, argmax (classifier (List.replicate size 0)))]

end NG.Images
