import Mathlib.Data.Nat.Basic
import Mathlib.Data.Int.Basic
import Mathlib.Data.List.Basic

/-!
# Image encoders and decoders: shapes (encoders.py)

Only the shapes of the tensors are modelled, not the weights. A shape is (channels, width, height) of one image.
-/

namespace NNL.Model

/-- The layers on images that encoders.py uses. -/
inductive ImgLayer
  | conv (cin cout k stride pad : ℕ)
  | pool
  | convT (cin cout k stride : ℕ)
  | up

/-- The shape of an image. -/
abbrev ImgShape := ℕ × ℕ × ℕ

/-- `torch.nn.Conv2d` along one axis: it raises if the kernel is larger than the padded input. -/
def convSize (k stride pad n : ℕ) : Option ℕ := if k ≤ n + 2 * pad then some ((n + 2 * pad - k) / stride + 1) else none

/-- The shape after a layer; `none` if the layer raises. `MaxPool2d(2, 2)` raises if a result would be empty, `ConvTranspose2d` on an empty input. -/
def ImgLayer.out : ImgLayer → ImgShape → Option ImgShape
  | .conv cin cout k s p, (c, w, h) =>
    if c = cin then (convSize k s p w).bind fun w' => (convSize k s p h).bind fun h' => some (cout, w', h') else none
  | .pool, (c, w, h) => if 2 ≤ w ∧ 2 ≤ h then some (c, w / 2, h / 2) else none
  | .convT cin cout k s, (c, w, h) => if c = cin ∧ 1 ≤ w ∧ 1 ≤ h then some (cout, (w - 1) * s + k, (h - 1) * s + k) else none
  | .up, (c, w, h) => some (c, w * 2, h * 2)

/-- The shape after some layers; encoders.py 29-40 `layers_output_shape` (whose argument is not used, it is always `self.conv`). -/
def layersOut (L : List ImgLayer) (s : ImgShape) : Option ImgShape := L.foldlM (fun s l => l.out s) s

/-- `torch.nn.Linear(a, b)` on a vector of some length. -/
def linearOut (ab : ℕ × ℕ) (n : ℕ) : Option ℕ := if n = ab.1 then some ab.2 else none

/-- Linear layers one after the other. -/
def linearsOut (L : List (ℕ × ℕ)) (n : ℕ) : Option ℕ := L.foldlM (fun n l => linearOut l n) n

/-- encoders.py 23-26, 58-61: the number of channels of the two images together. -/
def imgChannels (gray : Bool) : ℕ := if gray then 2 else 6

/-- An encoder: its layers on images and its linear layers. -/
structure EncNet where
  zDim : ℕ
  conv : List ImgLayer
  linear : List (ℕ × ℕ)

/-- The lengths of the mean and of the logarithm of the variance, encoders.py 82-90, 144-154, 216-226 `forward`. -/
def EncNet.forward (E : EncNet) (s : ImgShape) : Option (ℕ × ℕ) := do
  let t ← layersOut E.conv s
  let n ← linearsOut E.linear (t.1 * t.2.1 * t.2.2)
  some (min E.zDim n, n - E.zDim)

/-- encoders.py 66-80 `LinearEncoder1`. -/
def linearEncoder1 (z w h : ℕ) (gray : Bool) : Option EncNet :=
  some ⟨z, [], [(imgChannels gray * w * h, 500), (500, 500), (500, z * 2)]⟩

/-- encoders.py 122-142 `CNNEncoder1`; the constructor runs the layers on a random image. -/
def cnnEncoder1 (z w h : ℕ) (gray : Bool) : Option EncNet :=
  let conv : List ImgLayer := [.conv (imgChannels gray) 16 3 1 1, .pool, .conv 16 4 3 1 1, .pool]
  (layersOut conv (imgChannels gray, w, h)).bind fun t => some ⟨z, conv, [(t.1 * t.2.1 * t.2.2, z * 2)]⟩

/-- encoders.py 193-214 `CNNEncoder2`. -/
def cnnEncoder2 (z w h : ℕ) (gray : Bool) : Option EncNet :=
  let conv : List ImgLayer := [.conv (imgChannels gray) 32 5 1 0, .conv 32 32 5 2 0, .conv 32 32 5 2 0, .conv 32 10 5 2 0]
  (layersOut conv (imgChannels gray, w, h)).bind fun t => some ⟨z, conv, [(t.1 * t.2.1 * t.2.2, 500), (500, z * 2)]⟩

/-- A decoder: its linear layers, the shape that their result is viewed as, and its layers on images. -/
structure DecNet where
  linear : List (ℕ × ℕ)
  view : ImgShape
  conv : List ImgLayer

/-- The shape of the decoded image, encoders.py 111-118, 180-189, 266-275 `forward`. -/
def DecNet.forward (D : DecNet) (z : ℕ) : Option ImgShape := do
  let n ← linearsOut D.linear z
  if n = D.view.1 * D.view.2.1 * D.view.2.2 then layersOut D.conv D.view else none

/-- encoders.py 94-109 `LinearDecoder1`. -/
def linearDecoder1 (z w h : ℕ) (gray : Bool) : Option DecNet :=
  some ⟨[(z, 500), (500, 500), (500, imgChannels gray * w * h)], (imgChannels gray, w, h), []⟩

/-- encoders.py 158-178 `CNNDecoder1`. -/
def cnnDecoder1 (z w h : ℕ) (gray : Bool) : Option DecNet :=
  some ⟨[(z, w / 4 * (h / 4))], (1, w / 4, h / 4), [.convT 1 16 2 2, .convT 16 (imgChannels gray) 2 2]⟩

/-- encoders.py 236-242: `width_in` (or `height_in`); `int(x / 2)` truncates towards zero. -/
def decoder2Size (w : ℕ) : ℤ := (((w : ℤ) - 4).tdiv 2 - 4).tdiv 2 - 4

/-- encoders.py 230-264 `CNNDecoder2`. If one of the sizes is negative, the constructor or the `view` in `forward` raises; here it is the
constructor. -/
def cnnDecoder2 (z w h : ℕ) (gray : Bool) : Option DecNet :=
  if 0 ≤ decoder2Size w ∧ 0 ≤ decoder2Size h then
    some ⟨[(z, 200), (200, 1000), (1000, (decoder2Size w).toNat * (decoder2Size h).toNat)],
      (1, (decoder2Size w).toNat, (decoder2Size h).toNat),
      [.convT 1 32 5 1, .up, .convT 32 32 5 1, .up, .convT 32 (imgChannels gray) 5 1]⟩
  else none

end NNL.Model
