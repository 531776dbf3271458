import Verif.Props.Convert
import Verif.Props.QPin

/-! C79: pins of converted components. -/
namespace Props.ConvertPin
open Model.QPin Spec.Converted Props.QPin Props.Convert

/-- C79: a pin of a converted component is found exactly where the converted drawing has it: at the conversion of the place where the pin
is in LTspice, in all eight orientations, so that it meets the same wire ends and labels. Everything is on LTspice's grid of 16; floating
point errors are as in C68. -/
theorem C79_pin_position (eps : ℝ) (he : eps ≤ 9) (cx cy px py : ℤ) (hcx : ∃ k, cx = 16 * k) (hcy : ∃ k, cy = 16 * k) (hpx : ∃ k, px = 16 * k) (hpy : ∃ k, py = 16 * k)
    (hb : |px| + |py| ≤ 32000) (rot : ℕ) (hr : rot ∈ [0, 90, 180, 270, 360, 450, 540, 630]) (qx qy : ℤ) (hqx : Closest (25 * px) qx) (hqy : Closest (-25 * py) qy)
    (x y : ℤ) (h : pinAt eps (east cx) (north cy) qx qy (reversed rot / 45) x y) :
    (x, y) = (east (ltspicePin cx cy rot px py).1, north (ltspicePin cx cy rot px py).2) := by
  obtain ⟨a, rfl⟩ := hcx
  obtain ⟨b, rfl⟩ := hcy
  obtain ⟨c, rfl⟩ := hpx
  obtain ⟨d, rfl⟩ := hpy
  obtain rfl := ((C79_grid c).2.2.2.2.1 qx).1 hqx
  obtain rfl := ((C79_grid d).2.2.2.2.2 qy).1 hqy
  have hb' : |100 * c| + |-100 * d| ≤ 200000 := by
    have h1 : |16 * c| = 16 * |c| := by rw [abs_mul]; rfl
    have h2 : |16 * d| = 16 * |d| := by rw [abs_mul]; rfl
    have h3 : |100 * c| = 100 * |c| := by rw [abs_mul]; rfl
    have h4 : |-100 * d| = 100 * |d| := by rw [abs_mul]; rfl
    rw [h1, h2] at hb
    rw [h3, h4]
    omega
  obtain ⟨e1, e2⟩ := C68_pin_position eps he _ _ (100 * c) (-100 * d) ⟨c, rfl⟩ ⟨-d, by ring⟩ hb' _ x y h
  have E : ∀ k : ℤ, east (16 * k) = 100 * k := fun k => (C79_grid k).2.2.1
  have N : ∀ k : ℤ, north (16 * k) = -100 * k := fun k => (C79_grid k).2.2.2.1
  rw [e1, e2, E, N]
  simp only [List.mem_cons, List.not_mem_nil, or_false] at hr
  rcases hr with rfl | rfl | rfl | rfl | rfl | rfl | rfl | rfl
  · simp only [reversed, ltspicePin, turned]
    norm_num
    rw [show 16 * a + 16 * c = 16 * (a + c) by ring, show 16 * b + 16 * d = 16 * (b + d) by ring, E, N]
    constructor <;> ring
  · simp only [reversed, ltspicePin, turned]
    norm_num
    rw [show 16 * a + -(16 * d) = 16 * (a - d) by ring, show 16 * b + 16 * c = 16 * (b + c) by ring, E, N]
    constructor <;> ring
  · simp only [reversed, ltspicePin, turned]
    norm_num
    rw [show 16 * a + -(16 * c) = 16 * (a - c) by ring, show 16 * b + -(16 * d) = 16 * (b - d) by ring, E, N]
    constructor <;> ring
  · simp only [reversed, ltspicePin, turned]
    norm_num
    rw [show 16 * a + 16 * d = 16 * (a + d) by ring, show 16 * b + -(16 * c) = 16 * (b - c) by ring, E, N]
    constructor <;> ring
  · simp only [reversed, ltspicePin, turned]
    norm_num
    rw [show 16 * a - 16 * c = 16 * (a - c) by ring, show 16 * b + 16 * d = 16 * (b + d) by ring, E, N]
    constructor <;> ring
  · simp only [reversed, ltspicePin, turned]
    norm_num
    rw [show 16 * a + 16 * d = 16 * (a + d) by ring, show 16 * b + 16 * c = 16 * (b + c) by ring, E, N]
    constructor <;> ring
  · simp only [reversed, ltspicePin, turned]
    norm_num
    rw [show 16 * a + 16 * c = 16 * (a + c) by ring, show 16 * b + -(16 * d) = 16 * (b - d) by ring, E, N]
    constructor <;> ring
  · simp only [reversed, ltspicePin, turned]
    norm_num
    rw [show 16 * a - 16 * d = 16 * (a - d) by ring, show 16 * b + -(16 * c) = 16 * (b - c) by ring, E, N]
    constructor <;> ring

/-- The lower pin of a resistor turned by 90 degrees in LTspice. -/
example : ∃ x y : ℤ, pinAt 0 (east 96) (north 144) 100 (-600) (reversed 90 / 45) x y ∧ (x, y) = (0, -1000) := by
  obtain ⟨x, y, h⟩ := pin_exists (east 96) (north 144) 100 (-600) (reversed 90 / 45) (by decide)
  refine ⟨x, y, h, ?_⟩
  rw [C79_pin_position 0 (by norm_num) 96 144 16 96 ⟨6, by norm_num⟩ ⟨9, by norm_num⟩ ⟨1, by norm_num⟩ ⟨6, by norm_num⟩ (by norm_num) 90 (by decide) 100 (-600)
    (by unfold Closest; norm_num) (by unfold Closest; norm_num) x y h]
  decide +kernel

end Props.ConvertPin
