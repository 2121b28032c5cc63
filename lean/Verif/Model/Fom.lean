import Mathlib.Analysis.SpecialFunctions.Log.Base
import Mathlib.Analysis.SpecialFunctions.Pow.Real
import Mathlib.Analysis.SpecialFunctions.Sqrt
import Verif.Model.Basic

/-!
# Figures of merit (`src/cbadc/fom.py`)

Exact real arithmetic.  `np.log10` of a number that is not positive (numpy: `-inf` or `nan`) is 0 here; the
theorems only speak about positive numbers.
-/

namespace Cbadc.Fom

/-- `__twenty_log_2`, `src/cbadc/fom.py:18`. -/
noncomputable def twentyLog2 : ℝ := 20 * Real.logb 10 2

/-- `__quantization_noise_offset`, `src/cbadc/fom.py:19`. -/
noncomputable def quantizationNoiseOffset : ℝ := 20 * Real.logb 10 (Real.sqrt 6 / 2)

/-- `snr_to_enob`, `src/cbadc/fom.py:22-36`. -/
noncomputable def snrToEnob (SNR : ℝ) : ℝ := (SNR - quantizationNoiseOffset) / twentyLog2

/-- `snr_to_dB`, `src/cbadc/fom.py:39-53`. -/
noncomputable def snrToDB (snr : ℝ) : ℝ := 10 * Real.logb 10 snr

/-- `snr_from_dB`, `src/cbadc/fom.py:56-70`. -/
noncomputable def snrFromDB (snr : ℝ) : ℝ := (10 : ℝ) ^ (snr / 10)

/-- `enob_to_snr`, `src/cbadc/fom.py:73-88`. -/
noncomputable def enobToSnr (ENOB : ℝ) : ℝ := ENOB * twentyLog2 + quantizationNoiseOffset

/-- `nyquist_frequency`, `src/cbadc/fom.py:91-106`. -/
noncomputable def nyquistFrequency (fs : ℝ) : ℝ := fs / 2

/-- `OSR`, `src/cbadc/fom.py:109-126`. -/
noncomputable def osr (fs fSig : ℝ) : ℝ := nyquistFrequency fs / fSig

/-- `FoM_W`, `src/cbadc/fom.py:129-150`. -/
noncomputable def fomW (P fs ENOB : ℝ) : ℝ := P / (fs * (2 : ℝ) ^ ENOB)

/-- `FoM_S`, `src/cbadc/fom.py:153-174`. -/
noncomputable def fomS (P fs SNR : ℝ) : ℝ := SNR + 10 * Real.logb 10 (nyquistFrequency fs / P)

/-- `MurmannSurvey._f_sigma_to_jitter_sndr`, `src/cbadc/fom.py:447-448`. -/
noncomputable def jitterSndr (f sigma : ℝ) : ℝ := -20 * Real.logb 10 (2 * Real.pi * sigma * f)

/-- `MurmannSurvey._FoMW_SNDR_to_p_fs`, `src/cbadc/fom.py:450-452`. -/
noncomputable def fomWToPfs (F SNDR : ℝ) : ℝ := F * (2 : ℝ) ^ snrToEnob SNDR

/-- `MurmannSurvey._FoMS_SNDR_to_p_fs`, `src/cbadc/fom.py:454-455`. -/
noncomputable def fomSToPfs (F SNDR : ℝ) : ℝ := (10 : ℝ) ^ (-(F - SNDR) / 10) / 2

/-- `MurmannSurvey._FoMW_envelope`, `src/cbadc/fom.py:457-458`; `overall` and `corner` are the attributes
`_FoMW_hf_overall` and `_FoMW_hf_corner`. -/
noncomputable def fomWEnvelope (overall corner f : ℝ) : ℝ := overall * Real.sqrt (1 + (f / corner) ^ 2)

/-- `MurmannSurvey._FoMS_envelope`, `src/cbadc/fom.py:460-463`. -/
noncomputable def fomSEnvelope (overall corner f : ℝ) : ℝ :=
  overall - 10 * Real.logb 10 (Real.sqrt (1 + (f / corner) ^ 2))

/-- The two columns of a survey entry that the selection looks at, `src/cbadc/fom.py:408-411`, and the position
of the row in the data base. -/
structure Row where
  index : ℕ
  fsnyq : ℝ
  snr : ℝ

open Classical in
/-- `MurmannSurvey.select_bw_and_enob`, `src/cbadc/fom.py:383-413`: boolean indexing keeps the order. -/
noncomputable def selectBwAndEnob (db : List Row) (BW ENOB : ℝ × ℝ) : Res (List Row) :=
  if BW.1 > BW.2 then .error .exception
  else if ENOB.1 > ENOB.2 then .error .exception
  else .ok (db.filter fun r =>
    BW.1 ≤ r.fsnyq ∧ r.fsnyq < BW.2 ∧ enobToSnr ENOB.1 ≤ r.snr ∧ r.snr < enobToSnr ENOB.2)

end Cbadc.Fom
