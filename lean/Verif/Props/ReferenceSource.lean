import Verif.Spec.Dither
import Verif.Props.Dither
import Verif.Props.Comparator
import Verif.Props.DigitalControl

/-! # C131: the random controls of the dither control circuit -/

namespace Cbadc.Circuit
open Spec Reference

section
variable {K : Type*} [Field K] [DecidableEq K]

theorem mapM_ternary {l : List K} {r : List Level} (h : l.mapM ternary = .ok r) :
    ∀ (m : ℕ) x, l[m]? = some x → ∃ b, r[m]? = some b ∧ ternary x = .ok b := by
  induction l generalizing r with
  | nil => intro m x hx; simp at hx
  | cons a l ih =>
    rw [List.mapM_cons] at h
    cases ha : ternary a with
    | error e => rw [ha] at h; cases h
    | ok b =>
      rw [ha] at h
      cases hl : l.mapM ternary with
      | error e => rw [hl] at h; cases h
      | ok r' =>
        rw [hl] at h
        have : b :: r' = r := by injection h
        subst this
        intro m x hx
        cases m with
        | zero =>
          obtain rfl : a = x := by simpa using hx
          exact ⟨b, rfl, ha⟩
        | succ m => exact ih hl m x (by simpa using hx)

theorem rows_spec (T : K) (seq : List (List K)) : ∀ k rs, rows T k seq = .ok rs → rs.length = seq.length ∧
    ∀ (i : ℕ) x, seq[i]? = some x → ∃ l, rs[i]? = some ⟨(k + i : ℕ) * T, l⟩ ∧ x.mapM ternary = .ok l := by
  induction seq with
  | nil =>
    intro k rs h
    have : [] = rs := by injection h
    subst this
    exact ⟨rfl, by intro i x hx; simp at hx⟩
  | cons a seq ih =>
    intro k rs h
    unfold rows at h
    cases ha : a.mapM ternary with
    | error e => rw [ha] at h; cases h
    | ok l =>
      rw [ha] at h
      dsimp only at h
      cases hs : rows T (k + 1) seq with
      | error e => rw [hs] at h; cases h
      | ok r =>
        rw [hs] at h
        have : ⟨k * T, l⟩ :: r = rs := by injection h
        subst this
        obtain ⟨h1, h2⟩ := ih (k + 1) r hs
        refine ⟨by simp [h1], ?_⟩
        intro i x hx
        cases i with
        | zero =>
          obtain rfl : a = x := by simpa using hx
          exact ⟨l, by simp, ha⟩
        | succ i =>
          obtain ⟨l', e1, e2⟩ := h2 i x (by simpa using hx)
          refine ⟨l', ?_, e2⟩
          rw [show k + (i + 1) = k + 1 + i by omega]
          simpa using e1

/-- The file can be written exactly if every entry of the sequence is zero, one half or one. -/
theorem rows_ok (T : K) (seq : List (List K)) : ∀ k, (∃ rs, rows T k seq = .ok rs) ↔
    ∀ x ∈ seq, ∀ y ∈ x, y = 1 / 2 ∨ y = 0 ∨ y = 1 := by
  have cell : ∀ y : K, (∃ b, ternary y = .ok b) ↔ (y = 1 / 2 ∨ y = 0 ∨ y = 1) := by
    intro y
    unfold ternary
    by_cases h1 : y = 1 / 2
    · rw [if_pos h1]; exact ⟨fun _ => Or.inl h1, fun _ => ⟨_, rfl⟩⟩
    · rw [if_neg h1]
      by_cases h2 : y = 0
      · rw [if_pos h2]; exact ⟨fun _ => Or.inr (Or.inl h2), fun _ => ⟨_, rfl⟩⟩
      · rw [if_neg h2]
        by_cases h3 : y = 1
        · rw [if_pos h3]; exact ⟨fun _ => Or.inr (Or.inr h3), fun _ => ⟨_, rfl⟩⟩
        · rw [if_neg h3]
          constructor
          · rintro ⟨b, hb⟩; cases hb
          · rintro (h | h | h)
            · exact absurd h h1
            · exact absurd h h2
            · exact absurd h h3
  have row : ∀ x : List K, (∃ l, x.mapM ternary = .ok l) ↔ ∀ y ∈ x, y = 1 / 2 ∨ y = 0 ∨ y = 1 := by
    intro x
    induction x with
    | nil => exact ⟨fun _ => by simp, fun _ => ⟨[], rfl⟩⟩
    | cons a x ih =>
      rw [List.forall_mem_cons, ← ih, ← cell, List.mapM_cons]
      cases ha : ternary a with
      | error e =>
        constructor
        · rintro ⟨l, hl⟩; cases hl
        · rintro ⟨⟨b, hb⟩, -⟩; cases hb
      | ok b =>
        cases hl : x.mapM ternary with
        | error e =>
          constructor
          · rintro ⟨l, hl⟩; cases hl
          · rintro ⟨-, b, hb⟩; cases hb
        | ok l => exact ⟨fun _ => ⟨⟨_, rfl⟩, ⟨_, rfl⟩⟩, fun _ => ⟨b :: l, rfl⟩⟩
  induction seq with
  | nil => exact fun k => ⟨fun _ => by simp, fun _ => ⟨[], rfl⟩⟩
  | cons a seq ih =>
    intro k
    rw [List.forall_mem_cons, ← ih (k + 1), ← row, rows]
    cases ha : a.mapM ternary with
    | error e =>
      constructor
      · rintro ⟨l, hl⟩; cases hl
      · rintro ⟨⟨b, hb⟩, -⟩; cases hb
    | ok l =>
      dsimp only
      cases hs : rows T (k + 1) seq with
      | error e =>
        constructor
        · rintro ⟨l, hl⟩; cases hl
        · rintro ⟨-, b, hb⟩; cases hb
      | ok r => exact ⟨fun _ => ⟨⟨_, rfl⟩, ⟨_, rfl⟩⟩, fun _ => ⟨_, rfl⟩⟩

/-! ## The property: the file -/

/-- The state that an entry of the sequence stands for. -/
def Stands (x : K) (b : Level) : Prop :=
  (x = 0 ∧ b = .zero) ∨ (x = 1 ∧ b = .one) ∨ (x = 1 / 2 ∧ b = .undef)

theorem ternary_stands {x : K} {b : Level} (h : ternary x = .ok b) : Stands x b := by
  unfold ternary at h
  split_ifs at h with h1 h2 h3
  · exact Or.inr (Or.inr ⟨h1, by injection h with h; exact h.symm⟩)
  · exact Or.inl ⟨h2, by injection h with h; exact h.symm⟩
  · exact Or.inr (Or.inl ⟨h3, by injection h with h; exact h.symm⟩)

theorem rows_error (T : K) (seq : List (List K)) : ∀ k e, rows T k seq = .error e → e = .valueError := by
  have cell : ∀ (y : K) e, ternary y = .error e → e = .valueError := by
    intro y e h
    unfold ternary at h
    split_ifs at h
    injection h with h
    exact h.symm
  have row : ∀ (x : List K) e, x.mapM ternary = .error e → e = .valueError := by
    intro x
    induction x with
    | nil => intro e h; cases h
    | cons a x ih =>
      intro e h
      rw [List.mapM_cons] at h
      cases ha : ternary a with
      | error e' =>
        rw [ha] at h
        have : e' = e := by injection h
        exact this ▸ cell a e' ha
      | ok b =>
        rw [ha] at h
        cases hl : x.mapM ternary with
        | error e' =>
          rw [hl] at h
          have : e' = e := by injection h
          exact this ▸ ih e' hl
        | ok l => rw [hl] at h; cases h
  induction seq with
  | nil => intro k e h; cases h
  | cons a seq ih =>
    intro k e h
    unfold rows at h
    cases ha : a.mapM ternary with
    | error e' =>
      rw [ha] at h
      have : e' = e := by injection h
      exact this ▸ row a e' ha
    | ok l =>
      rw [ha] at h
      dsimp only at h
      cases hs : rows T (k + 1) seq with
      | error e' =>
        rw [hs] at h
        have : e' = e := by injection h
        exact this ▸ ih _ e' hs
      | ok r => rw [hs] at h; cases h

/-- The file holds the sequence: line `k` has the time `k T` and the states of row `k`. -/
def Holds (f : Files K) (name : String) (T : K) (seq : List (List K)) : Prop :=
  ∃ rs, f name = some rs ∧ rs.length = seq.length ∧ ∀ (k : ℕ) x, seq[k]? = some x →
    ∃ r, rs[k]? = some r ∧ r.time = k * T ∧ ∀ (m : ℕ) y, x[m]? = some y → ∃ b, r.levels[m]? = some b ∧ Stands y b

/-- C131, what the constructor accepts, and that a file that was not there then holds the sequence. -/
theorem C131_construct (files : Files K) (name : String) (T : K) (seq : List (List K)) :
    ((∃ f, construct files name T seq = .ok f) ↔ ∀ x ∈ seq, ∀ y ∈ x, y = 1 / 2 ∨ y = 0 ∨ y = 1) ∧
    (∀ e, construct files name T seq = .error e → e = .valueError) ∧
    (files name = none → ∀ f, construct files name T seq = .ok f →
      (∀ n, n ≠ name → f n = files n) ∧ Holds f name T seq) := by
  refine ⟨?_, ?_, ?_⟩
  · rw [← rows_ok T seq 0]
    unfold construct
    cases h : rows T 0 seq with
    | error e =>
      constructor
      · rintro ⟨f, hf⟩; cases hf
      · rintro ⟨f, hf⟩; cases hf
    | ok rs => exact ⟨fun _ => ⟨_, rfl⟩, fun _ => ⟨_, rfl⟩⟩
  · intro e h
    unfold construct at h
    cases hr : rows T 0 seq with
    | error e' =>
      rw [hr] at h
      have : e' = e := by injection h
      exact this ▸ rows_error T seq 0 e' hr
    | ok rs => rw [hr] at h; cases h
  · intro hn f h
    unfold construct at h
    cases hr : rows T 0 seq with
    | error e' => rw [hr] at h; cases h
    | ok rs =>
      rw [hr, hn] at h
      have : Function.update files name (some rs) = f := by injection h
      subst this
      refine ⟨fun n hne => Function.update_of_ne hne _ _, rs, Function.update_self _ _ _, ?_⟩
      obtain ⟨h1, h2⟩ := rows_spec T seq 0 rs hr
      refine ⟨h1, ?_⟩
      intro k x hx
      obtain ⟨l, e1, e2⟩ := h2 k x hx
      rw [zero_add] at e1
      refine ⟨_, e1, rfl, ?_⟩
      intro m y hy
      obtain ⟨b, hb, ht⟩ := mapM_ternary e2 m y hy
      exact ⟨b, hb, ternary_stands ht⟩

/-- C131, the file lasts: a source created under a name that was free finds its own sequence in the file, whatever
other sources are created and collected afterwards, as long as none of that name is collected.

Full statement (false, see `C131_stale_false`): every source that was created and not collected finds its own
sequence in the file. -/
theorem C131_file_partial (files : Files K) (name : String) (T : K) (seq : List (List K)) (f : Files K)
    (hn : files name = none) (h : construct files name T seq = .ok f) (ops : List (Reference.Op K))
    (hops : ∀ n, Reference.Op.collect n ∈ ops → n ≠ name) : Holds (ops.foldl exec f) name T seq := by
  have h0 := ((C131_construct files name T seq).2.2 hn f h).2
  clear h hn
  induction ops generalizing f with
  | nil => exact h0
  | cons o ops ih =>
    refine ih (exec f o) (fun n hn => hops n (List.mem_cons_of_mem _ hn)) ?_
    obtain ⟨rs, hf, hr⟩ := h0
    refine ⟨rs, ?_, hr⟩
    cases o with
    | create n T' seq' =>
      cases hrw : rows T' 0 seq' with
      | error e => simpa only [exec, construct, hrw] using hf
      | ok r =>
        simp only [exec, construct, hrw]
        by_cases hi : (f n).isSome
        · rw [if_pos hi]; exact hf
        · rw [if_neg hi, Function.update_of_ne, hf]
          rintro rfl
          exact hi (by rw [hf]; rfl)
    | collect n =>
      have hne := hops n List.mem_cons_self
      simp only [exec, delete]
      by_cases hi : (f n).isSome
      · rw [if_pos hi, Function.update_of_ne (Ne.symm hne), hf]
      · rw [if_neg hi]; exact hf

/-- A second source created under the same name keeps the file of the first one, and loses it when the first one is
collected. -/
theorem C131_stale_false (files : Files K) (name : String) (T T' : K) (seq seq' : List (List K)) (f : Files K)
    (hn : files name = none) (h : construct files name T seq = .ok f)
    (hok : ∀ x ∈ seq', ∀ y ∈ x, y = 1 / 2 ∨ y = 0 ∨ y = 1) (hl : seq.length ≠ seq'.length) :
    ∃ f', construct f name T' seq' = .ok f' ∧ ¬ Holds f' name T' seq' ∧ delete f' name name = none := by
  obtain ⟨-, rs, hf, hlen, -⟩ := (C131_construct files name T seq).2.2 hn f h
  obtain ⟨r, hr⟩ := (rows_ok T' seq' 0).mpr hok
  refine ⟨f, ?_, ?_, ?_⟩
  · unfold construct
    rw [hr]
    dsimp only
    rw [if_pos (by rw [hf]; rfl)]
  · rintro ⟨rs', hf', hlen', -⟩
    rw [hf] at hf'
    have : rs = rs' := by injection hf'
    subst this
    exact hl (hlen.symm.trans hlen')
  · unfold delete
    rw [if_pos (by rw [hf]; rfl), Function.update_self]

end

/-! ## The property: the random controls -/

/-- The potentials of a dither control circuit whose source reads a file with the given sequence. -/
def DitherBehaves (ids : String → ℕ → String) (N L M R : ℕ) (p : Timing) (T : ℝ) (seq : List (List ℝ))
    (v : String → ℝ → ℝ) : Prop :=
  ∃ (s : Sub Obj ℝ) (f : Files ℝ) (rs : List (Row ℝ)),
    Sub.run (Obj.name ids) (ditherControlOps N L M R) .empty = .ok s ∧ Holds f "dither" T seq ∧
      f "dither" = some rs ∧ ∀ l ∈ s.netlist (Obj.name ids), DitherLaw p rs v l

theorem flip_flops (ids : String → ℕ → String) (N L M R : ℕ) (p : Timing) (T : ℝ) (seq : List (List ℝ))
    (v : String → ℝ → ℝ) (h : DitherBehaves ids N L M R p T seq v) (k : ℕ) (e f n : ℝ)
    (hper : Period p.hi (v "CLK") e f n) (hk1 : k * T < e + p.adc) (hk2 : e + p.adc < (k + 1 : ℕ) * T) (m : ℕ)
    (hm : m < R) (x : List ℝ) (hx : seq[k]? = some x) (b : ℝ) (hb : x[m]? = some b) (hbit : b = 0 ∨ b = 1) :
    (∀ t, e + p.adc + p.dff < t → t ≤ n + p.adc + p.dff → v "F_OUT_P" t = b ∧ v "F_OUT_N" t = 1 - b) ∧
      DacLaw p (v "F_OUT_P") (v (fmt "S" m "_P")) ∧ DacLaw p (v "F_OUT_N") (v (fmt "S" m "_N")) := by
  obtain ⟨s, fs, rs, hs, ⟨rs', hrs', hlen, hrow⟩, hrs, hlaw⟩ := h
  have : rs' = rs := by
    rw [hrs] at hrs'
    injection hrs' with e
    exact e.symm
  subst this
  obtain ⟨s', hs', hn⟩ := di_netlist (K := ℝ) ids N L M R
  have : s = s' := by
    have := hs.symm.trans hs'
    injection this
  subst this
  rw [hn] at hlaw
  have hA := hlaw _ ((dcNet_mem N L M R _).mpr (Or.inr (Or.inl rfl)))
  have hC := hlaw _ ((dcNet_mem N L M R _).mpr (Or.inr (Or.inr (Or.inl rfl))))
  have hF := hlaw _ ((dcNet_mem N L M R _).mpr (Or.inr (Or.inr (Or.inr (Or.inl ⟨m, hm, rfl⟩)))))
  have hP := hlaw _ ((dcNet_mem N L M R _).mpr (Or.inr (Or.inr (Or.inr (Or.inr (Or.inl ⟨m, hm, rfl⟩))))))
  have hN := hlaw _ ((dcNet_mem N L M R _).mpr (Or.inr (Or.inr (Or.inr (Or.inr (Or.inr ⟨m, hm, rfl⟩))))))
  simp only [DitherLaw] at hA hC hF hP hN
  refine ⟨?_, hP, hN⟩
  obtain ⟨hr, hno⟩ := clock_edges hC (by simpa using hper)
  obtain ⟨r, hr1, hr2, hr3⟩ := hrow k x hx
  obtain ⟨lv, hl1, hl2⟩ := hr3 m b hb
  have hval : levelValue lv = b := by
    rcases hl2 with ⟨h1, h2⟩ | ⟨h1, h2⟩ | ⟨h1, h2⟩
    · rw [h1, h2]; rfl
    · rw [h1, h2]; rfl
    · rw [h1] at hbit
      norm_num at hbit
  have hdata : Around (e + p.adc) (fun t => v (fmt "RS_" m "") t = b) := by
    refine ⟨min (e + p.adc - k * T) ((k + 1 : ℕ) * T - (e + p.adc)), lt_min (by linarith) (by linarith), ?_⟩
    intro t h1 h2
    have m1 : min (e + p.adc - k * T) ((k + 1 : ℕ) * T - (e + p.adc)) ≤ e + p.adc - k * T := min_le_left _ _
    have m2 : min (e + p.adc - k * T) ((k + 1 : ℕ) * T - (e + p.adc)) ≤ (k + 1 : ℕ) * T - (e + p.adc) :=
      min_le_right _ _
    rw [← hval]
    refine hA k m r lv _ hr1 hl1 (by simp [hm]) t (by rw [hr2]; linarith) ?_
    intro r' hr'
    have hlt : k + 1 < seq.length := by
      rw [← hlen]
      exact (List.getElem?_eq_some_iff.mp hr').1
    obtain ⟨r'', e1, e2, -⟩ := hrow (k + 1) seq[k + 1] (List.getElem?_eq_getElem hlt)
    have : r' = r'' := by
      rw [hr'] at e1
      injection e1
    rw [this, e2]
    linarith
  intro t h1 h2
  have := hF (e + p.adc) b hbit hr hdata (t - p.dff) (by linarith) (fun e' he1 he2 => hno e' he1 (by linarith))
  rwa [sub_add_cancel] at this

/-- C131, the random controls: after the edge of the clock at `e`, within the time of row `k` of the sequence, and
until the next edge, each up to the delays of the devices, random control `m` is positive if entry `m` of row `k` is
one and negative if it is zero. -/
theorem C131_random (ids : String → ℕ → String) (N L M R : ℕ) (p : Timing) (T : ℝ)
    (seq : List (List ℝ)) (v : String → ℝ → ℝ) (h : DitherBehaves ids N L M R p T seq v) (k : ℕ) (e f n : ℝ)
    (hper : Period p.hi (v "CLK") e f n) (hk1 : k * T < e + p.adc) (hk2 : e + p.adc < (k + 1 : ℕ) * T) (m : ℕ)
    (hm : m < R) (x : List ℝ) (hx : seq[k]? = some x) (t : ℝ) (h1 : e + p.adc + p.dff + p.ramp < t)
    (h2 : t ≤ n + p.adc + p.dff) :
    (x[m]? = some 1 → v (fmt "S" m "_P") t - v (fmt "S" m "_N") t = p.high - p.low) ∧
    (x[m]? = some 0 → v (fmt "S" m "_P") t - v (fmt "S" m "_N") t = p.low - p.high) := by
  constructor
  · intro hb
    obtain ⟨a, hP, hN⟩ := flip_flops ids N L M R p T seq v h k e f n hper hk1 hk2 m hm x hx 1 hb (Or.inr rfl)
    rw [(hP t).1 fun s s1 s2 => (a s (by linarith) (by linarith)).1,
      (hN t).2 fun s s1 s2 => by rw [(a s (by linarith) (by linarith)).2, sub_self]]
  · intro hb
    obtain ⟨a, hP, hN⟩ := flip_flops ids N L M R p T seq v h k e f n hper hk1 hk2 m hm x hx 0 hb (Or.inl rfl)
    rw [(hP t).2 fun s s1 s2 => (a s (by linarith) (by linarith)).1,
      (hN t).1 fun s s1 s2 => by rw [(a s (by linarith) (by linarith)).2, sub_zero]]

/-- Two random controls whose sequences differ in row `k`: no potentials obey the laws of the circuit together with a
clock that has an edge in that row, since the two flip-flops drive one node. -/
theorem C131_two_false (ids : String → ℕ → String) (N L M R : ℕ) (p : Timing) (T : ℝ)
    (seq : List (List ℝ)) (k : ℕ) (e f n : ℝ) (hk1 : k * T < e + p.adc) (hk2 : e + p.adc < (k + 1 : ℕ) * T)
    (m m' : ℕ) (hm : m < R) (hm' : m' < R) (x : List ℝ) (hx : seq[k]? = some x) (h1 : x[m]? = some 1)
    (h0 : x[m']? = some 0) :
    ¬ ∃ v : String → ℝ → ℝ, DitherBehaves ids N L M R p T seq v ∧ Period p.hi (v "CLK") e f n := by
  rintro ⟨v, h, hper⟩
  obtain ⟨a, -⟩ := flip_flops ids N L M R p T seq v h k e f n hper hk1 hk2 m hm x hx 1 h1 (Or.inr rfl)
  obtain ⟨b, -⟩ := flip_flops ids N L M R p T seq v h k e f n hper hk1 hk2 m' hm' x hx 0 h0 (Or.inl rfl)
  have hen : e < n := lt_of_lt_of_le hper.1 hper.2.1
  have a' := (a (n + p.adc + p.dff) (by linarith) le_rfl).1
  have b' := (b (n + p.adc + p.dff) (by linarith) le_rfl).1
  rw [a'] at b'
  exact one_ne_zero b'

/-! ## The property: circuit and simulation -/

open Control in
/-- C131, with one random control the circuit and the simulated control draw the same: in row `k` of the table the
circuit's random control has the value that the simulated one has after its update number `k + 1`.

Full statement (false, see `C131_nominal_false`): with any number of random controls. -/
theorem C131_nominal_partial {Mc : ℕ} (d : Dither ℝ 1 Mc) (l : List (ℝ × (Fin Mc → ℝ))) (y : ℝ × (Fin Mc → ℝ))
    (hph : ∀ z ∈ l ++ [y], ∀ m, |z.1 - (d.ir m).t0| ≤ dtol d m) (hsize : l.length < d.size)
    (hbit : ∀ k, d.seq k 0 = 0 ∨ d.seq k 0 = 1)
    (ids : String → ℕ → String) (N L M : ℕ) (p : Timing) (T : ℝ) (v : String → ℝ → ℝ)
    (h : DitherBehaves ids N L M 1 p T ((List.range d.size).map fun k => [d.seq k 0]) v) (e f n : ℝ)
    (hper : Period p.hi (v "CLK") e f n) (hk1 : l.length * T < e + p.adc)
    (hk2 : e + p.adc < (l.length + 1 : ℕ) * T) (t : ℝ) (h1 : e + p.adc + p.dff + p.ramp < t)
    (h2 : t ≤ n + p.adc + p.dff) :
    v "S0_P" t - v "S0_N" t = (p.high - p.low) *
      (2 * ditherSignal (dRun d (DState.init true) ((l ++ [y]).map fun x => DOp.update x.1 x.2)) (Fin.castAdd Mc 0)
        - 1) := by
  have hx : ((List.range d.size).map fun k => [d.seq k 0])[l.length]? = some [d.seq l.length 0] := by
    simp [hsize]
  have hr := C131_random ids N L M 1 p T _ v h l.length e f n hper hk1 hk2 0 one_pos _ hx t h1 h2
  have eP : fmt "S" 0 "_P" = "S0_P" := by decide +kernel
  have eN : fmt "S" 0 "_N" = "S0_N" := by decide +kernel
  rw [eP, eN] at hr
  rw [C19_rows_in_order d l y hph 0]
  simp only [mul_one, Fin.val_zero, add_zero, Nat.mod_eq_of_lt hsize]
  rcases hbit l.length with hb | hb
  · rw [hr.2 (by simp [hb]), hb]; ring
  · rw [hr.1 (by simp [hb]), hb]; ring

open Control in
/-- With two random controls the simulated control reads, for its second update, the rows two and three of the table
where the circuit reads row one. -/
theorem C131_nominal_false {Mc : ℕ} (d : Dither ℝ 2 Mc) (y z : ℝ × (Fin Mc → ℝ)) (hsize : 3 < d.size)
    (hph : ∀ w ∈ [y] ++ [z], ∀ m, |w.1 - (d.ir m).t0| ≤ dtol d m) :
    ditherSignal (dRun d (DState.init true) (([y] ++ [z]).map fun x => DOp.update x.1 x.2)) (Fin.castAdd Mc 0) =
        d.seq 2 0 ∧
      ditherSignal (dRun d (DState.init true) (([y] ++ [z]).map fun x => DOp.update x.1 x.2)) (Fin.castAdd Mc 1) =
        d.seq 3 1 := by
  constructor
  · rw [C19_rows_in_order d [y] z hph 0]
    congr 1
    simp [Nat.mod_eq_of_lt (show 2 < d.size by omega)]
  · rw [C19_rows_in_order d [y] z hph 1]
    congr 1
    simp [Nat.mod_eq_of_lt hsize]

/-! ## Cases -/

/-- The hypotheses of the statements about the file are met: a first source under the name `a`, with two rows, and a
second one with a single row. -/
example : ∃ f, construct (fun _ => none) "a" (1 : ℚ) [[0, 1], [1, 1 / 2]] = .ok f ∧ Holds f "a" 1 [[0, 1], [1, 1 / 2]] ∧
    Holds ([Reference.Op.create "b" 1 [[0]], .collect "b", .create "a" 1 [[1]]].foldl exec f) "a" 1 [[0, 1], [1, 1 / 2]] ∧
    ∃ f', construct f "a" 1 [[1]] = .ok f' ∧ ¬ Holds f' "a" 1 [[1]] := by
  obtain ⟨f, hf⟩ := (C131_construct (fun _ => none) "a" (1 : ℚ) [[0, 1], [1, 1 / 2]]).1.mpr (by simp)
  refine ⟨f, hf, ((C131_construct _ _ _ _).2.2 rfl f hf).2, C131_file_partial _ _ _ _ f rfl hf _ (by simp), ?_⟩
  obtain ⟨f', h1, h2, -⟩ := C131_stale_false _ "a" 1 1 _ [[1]] f rfl hf (by simp) (by simp)
  exact ⟨f', h1, h2⟩

/-- A sequence with another number is refused. -/
example : construct (fun _ => none) "a" (1 : ℚ) [[0, 2]] = .error .valueError := by
  have h := (C131_construct (fun _ => none) "a" (1 : ℚ) [[0, 2]])
  cases hc : construct (fun _ => none) "a" (1 : ℚ) [[0, 2]] with
  | error e => rw [h.2.1 e hc]
  | ok f =>
    have := h.1.mp ⟨f, hc⟩ [0, 2] (by simp) 2 (by simp)
    norm_num at this

/-- Potentials of a circuit with one random control, whose sequence has the single entry one. -/
theorem dither_ex (N L M : ℕ) : ∃ v : String → ℝ → ℝ, DitherBehaves (fun _ _ => "") N L M 1 timingEx 10 [[1]] v ∧
    v "CLK" = potEx "CLK" ∧ v "S0_P" = potEx "OUT_P" := by
  obtain ⟨pot, hl, hv⟩ := potEx_obeys
  simp only [clockedDef, List.forall_mem_cons, List.not_mem_nil, false_imp_iff, implies_true, and_true] at hl
  obtain ⟨hclk, hin, hff, hdp, hdn⟩ := hl
  simp only [MixedLaw] at hclk hin hff hdp hdn
  have h0 : pot "CLK" = potEx "CLK" := hv 0 (by decide)
  have h1 : pot "IN" = potEx "IN" := hv 1 (by decide)
  have h2 : pot "OUT_P" = potEx "OUT_P" := hv 2 (by decide)
  have h4 : pot "VCM" = potEx "VCM" := hv 4 (by decide)
  have hz : pot "VCM" = fun _ => 0 := by
    rw [h4]
    funext t
    simp [potEx]
  have hone : ∀ t, pot "OUT" t = 1 := by
    intro t
    have := (hin (t - timingEx.adc)).2.1 (by
      rw [h1, hz]
      simp [potEx, timingEx])
    rwa [sub_add_cancel] at this
  obtain ⟨s, hs, hn⟩ := di_netlist (K := ℝ) (fun _ _ => "") N L M 1
  obtain ⟨f, hf⟩ := (C131_construct (fun _ => none) "dither" (10 : ℝ) [[1]]).1.mpr (by simp)
  have hh := ((C131_construct _ _ _ _).2.2 rfl f hf).2
  obtain ⟨rs, hrs, hlen, hrow⟩ := hh
  refine ⟨fun s => if s = "OUT" then pot "CLKD" else if s = "RS_0" then pot "OUT" else if s = "S0_P" then pot "OUT_P"
    else if s = "S0_N" then pot "OUT_N" else pot s, ⟨s, f, rs, hs, ⟨rs, hrs, hlen, hrow⟩, hrs, ?_⟩, ?_, ?_⟩
  · rw [hn]
    intro l hl
    have eR : fmt "RS_" 0 "" = "RS_0" := by decide +kernel
    have eP : fmt "S" 0 "_P" = "S0_P" := by decide +kernel
    have eN : fmt "S" 0 "_N" = "S0_N" := by decide +kernel
    rcases (dcNet_mem (K := ℝ) N L M 1 l).mp hl with rfl | rfl | rfl | ⟨m, hm, rfl⟩ | ⟨m, hm, rfl⟩ | ⟨m, hm, rfl⟩
    · trivial
    · intro k m r b out e1 e2 e3 t _ _
      have hk : k < 1 := by
        have := (List.getElem?_eq_some_iff.mp e1).1
        rw [hlen] at this
        exact this
      obtain rfl : k = 0 := by omega
      have hm : m < 1 := by
        have := (List.getElem?_eq_some_iff.mp e3).1
        simpa using this
      obtain rfl : m = 0 := by omega
      obtain ⟨r', a1, -, a3⟩ := hrow 0 [1] rfl
      obtain ⟨b', b1, b2⟩ := a3 0 1 rfl
      have : r = r' := by
        rw [e1] at a1
        injection a1
      subst this
      have : b = b' := by
        rw [e2] at b1
        injection b1
      subst this
      have hb : b = .one := by
        rcases b2 with ⟨h, -⟩ | ⟨-, h⟩ | ⟨h, -⟩
        · norm_num at h
        · exact h
        · norm_num at h
      have ho : pot "OUT" = out := by
        simpa [eR] using e3
      rw [← ho, hone, hb]
      rfl
    · simp only [DitherLaw, String.reduceEq, if_true, if_false]
      rw [← hz]
      exact hclk
    · obtain rfl : m = 0 := by omega
      simpa only [DitherLaw, eR, String.reduceEq, if_true, if_false] using hff
    · obtain rfl : m = 0 := by omega
      simpa only [DitherLaw, eP, String.reduceEq, if_true, if_false] using hdp
    · obtain rfl : m = 0 := by omega
      simpa only [DitherLaw, eN, String.reduceEq, if_true, if_false] using hdn
  · simpa using h0
  · simpa using h2

theorem dither_clock : Period timingEx.hi (potEx "CLK") 0 10 10 := by
  refine ⟨by norm_num, le_rfl, ⟨1, one_pos, ?_⟩, ?_, ?_⟩
  · intro s _ hs
    simp only [potEx, timingEx, if_true]
    rw [if_pos hs]
    norm_num
  · intro s hs _
    simp only [potEx, timingEx, if_true]
    rw [if_neg (by linarith)]
    norm_num
  · intro s h1 h2
    linarith

/-- The hypotheses of `C131_random` are met by this circuit: its random control turns positive. -/
example : ∃ v : String → ℝ → ℝ, ∀ t, 3 < t → t ≤ 12 → v "S0_P" t - v "S0_N" t = 2 := by
  obtain ⟨v, hv, hc, -⟩ := dither_ex 1 1 2
  refine ⟨v, fun t h1 h2 => ?_⟩
  have eP : fmt "S" 0 "_P" = "S0_P" := by decide +kernel
  have eN : fmt "S" 0 "_N" = "S0_N" := by decide +kernel
  have := (C131_random (fun _ _ => "") 1 1 2 1 timingEx 10 [[1]] v hv 0 0 10 10 (by rw [hc]; exact dither_clock)
    (by norm_num [timingEx]) (by norm_num [timingEx]) 0 one_pos [1] rfl t (by norm_num [timingEx]; linarith)
    (by norm_num [timingEx]; linarith)).1 rfl
  rw [eP, eN] at this
  rw [this]
  norm_num [timingEx]

/-- The conditions of `C131_two_false` are met by two sequences that differ in their first entry. -/
example (N L M : ℕ) : ¬ ∃ v : String → ℝ → ℝ, DitherBehaves (fun _ _ => "") N L M 2 timingEx 10 [[1, 0]] v ∧
    Period timingEx.hi (v "CLK") 0 10 10 :=
  C131_two_false (fun _ _ => "") N L M 2 timingEx 10 [[1, 0]] 0 0 10 10 (by norm_num [timingEx])
    (by norm_num [timingEx]) 0 1 (by norm_num) (by norm_num) [1, 0] rfl rfl rfl

open Control in
/-- The hypotheses of `C131_nominal_partial` are met: a dither control with one random control and a table with the
single entry one. -/
example (N L M : ℕ) : ∃ v : String → ℝ → ℝ, ∀ t, 3 < t → t ≤ 12 → v "S0_P" t - v "S0_N" t = 2 *
    (2 * ditherSignal (dRun (⟨⟨1, 1 / 100, 0, fun _ => stepResponse 0, fun _ => 0⟩, fun _ => stepResponse 0,
      fun _ _ => 1, 1, 0⟩ : Dither ℝ 1 1) (DState.init true) [DOp.update 0 fun _ => 0]) (Fin.castAdd 1 0) - 1) := by
  obtain ⟨v, hv, hc, -⟩ := dither_ex N L M
  refine ⟨v, fun t h1 h2 => ?_⟩
  have := C131_nominal_partial (⟨⟨1, 1 / 100, 0, fun _ => stepResponse 0, fun _ => 0⟩, fun _ => stepResponse 0,
      fun _ _ => 1, 1, 0⟩ : Dither ℝ 1 1) [] (0, fun _ => 0) (by
        intro z hz m
        have : z.1 = 0 := by
          simp only [List.nil_append, List.mem_cons, List.not_mem_nil, or_false] at hz
          rw [hz]
        rw [this]
        norm_num [stepResponse, dtol]) one_pos (fun _ => Or.inr rfl) (fun _ _ => "") N L M timingEx 10 v hv 0 10 10
    (by rw [hc]; exact dither_clock) (by norm_num [timingEx]) (by norm_num [timingEx]) t
    (by norm_num [timingEx]; linarith) (by norm_num [timingEx]; linarith)
  rw [this]
  norm_num [timingEx]

open Control in
/-- The hypotheses of `C131_nominal_false` are met: two random controls and a table of four rows, in which the second
random control of the simulation draws the one of row 3. -/
example : let d : Dither ℝ 2 1 := ⟨⟨1, 1 / 100, 0, fun _ => stepResponse 0, fun _ => 0⟩, fun _ => stepResponse 0,
      fun k _ => if k = 3 then 1 else 0, 4, 0⟩
    ditherSignal (dRun d (DState.init true) [DOp.update 0 fun _ => 0, DOp.update 0 fun _ => 0]) (Fin.castAdd 1 1) = 1 ∧
      d.seq 1 1 = 0 := by
  intro d
  refine ⟨?_, by simp [d]⟩
  have := (C131_nominal_false d (0, fun _ => 0) (0, fun _ => 0) (by simp [d]) (by
    intro w hw m
    have : w.1 = 0 := by
      simp only [List.cons_append, List.nil_append, List.mem_cons, List.not_mem_nil, or_false, or_self] at hw
      rw [hw]
    rw [this]
    norm_num [d, stepResponse, dtol])).2
  simpa [d] using this

end Cbadc.Circuit
