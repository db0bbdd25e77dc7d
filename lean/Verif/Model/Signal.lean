import Verif.Model.Graph
import Mathlib.Analysis.SpecialFunctions.Complex.Circle
import Mathlib.Analysis.SpecialFunctions.Pow.Real
/-!
# Signals, the time/frequency grid and the Fourier helpers

`simulator/fiber/assets/propagator.py`, `simulator/fiber/assets/functions.py`.

Simplifications: floats are reals/complexes; the column vectors of shape `(n_samples, 1)` are functions on `Fin n`;
`autograd.numpy` is numpy.
-/

namespace Verif
open Complex

/-- A state vector with `n` samples. `simulator/fiber/assets/propagator.py:23`. -/
abbrev Signal (n : Nat) := Fin n → ℂ

/-- `Propagator` (`propagator.py:14-23`): `n_samples`, `window_t`, `central_wl`; the arrays are computed from them
(`t`, `f`, … below).  Of the `state` array only the shape is ever read; it is in `Model/PropObject`. -/
structure Prop_ (n : Nat) where
  window : ℝ
  centralWl : ℝ

/-- `scipy.constants.speed_of_light` (and the `speed_of_light` property, lines 67-69). -/
noncomputable def lightSpeed : ℝ := 299792458

namespace Prop_
variable {n : Nat} (P : Prop_ n)

/-- `np.linspace(lo, hi, n)`: `lo + j * (hi - lo) / (n - 1)`. `simulator/fiber/assets/propagator.py:89-94`. -/
noncomputable def linspace (lo hi : ℝ) (n : Nat) (j : Fin n) : ℝ := lo + j * ((hi - lo) / ((n : ℝ) - 1))

/-- The step that `np.linspace(…, retstep=True)` returns as well. `simulator/fiber/assets/propagator.py:89-94`. -/
noncomputable def linstep (lo hi : ℝ) (n : Nat) : ℝ := (hi - lo) / ((n : ℝ) - 1)

/-- Time axis (line 89). -/
noncomputable def t (j : Fin n) : ℝ := linspace (-P.window / 2) (P.window / 2) n j

/-- Time step (line 89). -/
noncomputable def dt : ℝ := linstep (-P.window / 2) (P.window / 2) n

/-- Frequency axis (lines 93-94). -/
noncomputable def f (j : Fin n) : ℝ := linspace (-n / P.window / 2) (n / P.window / 2) n j

/-- Frequency step (lines 93-94). -/
noncomputable def df : ℝ := linstep (-n / P.window / 2) (n / P.window / 2) n

/-- `central_frequency` (line 19). -/
noncomputable def central : ℝ := lightSpeed / P.centralWl

/-- The `n_samples` setter (lines 41-45): the arrays follow. -/
def setSamples (m : Nat) : Prop_ m := ⟨P.window, P.centralWl⟩

/-- What `type(window_t)` can be. `simulator/fiber/assets/propagator.py:53`. -/
inductive PyType | float | int | npFloat | other
  deriving DecidableEq

/-- The two kinds of Python objects the setter compares: objects of different kinds are different.
`simulator/fiber/assets/propagator.py:53`. -/
inductive PyObj | type (t : PyType) | str (s : String)
  deriving DecidableEq

/-- The `window_t` setter (lines 51-57), with its test `type(window_t) not in ['float', 'int']`. -/
def setWindow (ty : PyType) (w : ℝ) : Except Err (Prop_ n) :=
  if PyObj.type ty ∉ [PyObj.str "float", PyObj.str "int"] then .error .valueError else .ok ⟨w, P.centralWl⟩

end Prop_

/-- `np.fft.fft(state, axis=0)`. `simulator/fiber/assets/functions.py:22-26`. -/
noncomputable def npFft {n : Nat} (x : Signal n) : Signal n :=
  fun k => ∑ j : Fin n, x j * exp (-(2 * Real.pi * I * (j : ℂ) * (k : ℂ) / (n : ℂ)))

/-- `np.fft.ifft(state, axis=0)`. `simulator/fiber/assets/functions.py:39-42`. -/
noncomputable def npIfft {n : Nat} (X : Signal n) : Signal n :=
  fun j => (∑ k : Fin n, X k * exp (2 * Real.pi * I * (j : ℂ) * (k : ℂ) / (n : ℂ))) / (n : ℂ)

/-- `fft_` (`functions.py:22-25`). -/
noncomputable def fft_ {n : Nat} (x : Signal n) (dt : ℝ) : Signal n := fun k => npFft x k * (dt : ℂ)

/-- `ifft_` (`functions.py:39-42`). -/
noncomputable def ifft_ {n : Nat} (X : Signal n) (dt : ℝ) : Signal n := fun j => npIfft X j / (dt : ℂ)

/-- Cyclic index `(i + s) mod n`. `simulator/fiber/assets/functions.py:28-37`. -/
def rotIdx {n : Nat} (s : Nat) (i : Fin n) : Fin n := ⟨(i.val + s) % n, Nat.mod_lt _ (Nat.lt_of_le_of_lt (Nat.zero_le _) i.isLt)⟩

/-- `ifft_shift_` (`functions.py:28-31`): `np.fft.ifftshift` rolls by `-(n // 2)`, i.e. `out[i] = x[(i + n//2) % n]`. -/
def ifftShift {n : Nat} {α : Type} (x : Fin n → α) : Fin n → α := fun i => x (rotIdx (n / 2) i)

/-- `fft_shift_` (`functions.py:34-37`): `np.fft.fftshift` rolls by `n // 2`, i.e. `out[i] = x[(i + n - n//2) % n]`. -/
def fftShift {n : Nat} {α : Type} (x : Fin n → α) : Fin n → α := fun i => x (rotIdx (n - n / 2) i)

/-- `power_` (`functions.py:10-13`). -/
noncomputable def power_ {n : Nat} (x : Signal n) : Fin n → ℝ := fun i => ‖x i‖ ^ 2

/-- `psd_` (`functions.py:16-19`). -/
noncomputable def psd_ {n : Nat} (x : Signal n) (dt df : ℝ) : Fin n → ℝ :=
  fun i => ‖fftShift (npFft (fftShift x)) i * (dt : ℂ)‖ ^ 2 / df

/-- `dB_to_amplitude_ratio` (`functions.py:61-62`). -/
noncomputable def dbAmp (db : ℝ) : ℝ := (10 : ℝ) ^ (db / 20)

/-- `np.mean` of a real vector. `simulator/fiber/node_types_subclasses/single_path.py:395-517`. -/
noncomputable def npMean {n : Nat} (x : Fin n → ℝ) : ℝ := (∑ i, x i) / n

end Verif
