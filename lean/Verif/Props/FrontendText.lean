import Verif.Lemmas.FrontendTextOp
import Verif.Props.OpAmp

/-!
# C166: the printed text of the op-amp frontend is a circuit of the right system

`num` is what python prints for a number and `val` how ngspice reads it.
-/

namespace Cbadc.FrontendText

open Cbadc.Circuit Cbadc.Circuit.Spec Cbadc.Cards
open Cbadc.NetlistText (Text)

variable {num : ℝ → Text} {val : Text → Option ℝ} {isFloat : Text → Bool} {ids : String → ℕ → String}

/-- The terminals of a frontend, as ngspice knows them. -/
def readPorts (L M : ℕ) : List String :=
  ["vss", "vdd", "clk", "vcm"] ++ (List.range L).map (fmt "in" · "_p") ++ (List.range L).map (fmt "in" · "_n")
    ++ (List.range M).map (fmt "out" · "_p") ++ (List.range M).map (fmt "out" · "_n")

theorem ports_plain (L M : ℕ) : (frontendPins L M).map (fun p => plain p.toList) = readPorts L M := by
  unfold frontendPins readPorts
  simp only [List.map_append, List.map_map]
  have h0 : ["VSS", "VDD", "CLK", "VCM"].map (fun p => plain p.toList) = ["vss", "vdd", "clk", "vcm"] := by decide
  rw [h0]
  have e : ∀ (a b a' b' : String) (J : ℕ), a.toList.map Char.toLower = a'.toList → b.toList.map Char.toLower = b'.toList →
      (List.range J).map ((fun p : String => plain p.toList) ∘ fun n => fmt a n b) = (List.range J).map fun n => fmt a' n b' :=
    fun a b a' b' J ha hb => List.map_congr_left fun n _ => plain_fmt a b a' b' n ha hb
  rw [e "IN" "_P" "in" "_p" L (by decide) (by decide), e "IN" "_N" "in" "_n" L (by decide) (by decide),
    e "OUT" "_P" "out" "_p" M (by decide) (by decide), e "OUT" "_N" "out" "_n" M (by decide) (by decide)]

/-- **C166** The definition that `OpAmpFrontend` prints is a text that ngspice reads, without regard to the case of
letters, as a sub-circuit with the terminals of the frontend and with elements of different names.  If the capacitance
and the resistances are printed with a relative error of at most `ε`, the quantities of this circuit are exactly the
solutions of the state equation of a system whose matrices differ from the given ones, entry by entry, by a fraction of
at most `1/(1-ε)² - 1`. -/
theorem C166_opamp_text (S : Analog.Sys ℝ) (C : ℝ) (hC : C ≠ 0) :
    (S.Gamma = none → opampText num isFloat ids S C = .error .exception) ∧
    ∀ G, S.Gamma = some G → ∀ ε < 1, Near num val ε C →
      (∀ n < S.N, ∀ j < S.N, S.A n j ≠ 0 → Near num val ε (1 / (C * |S.A n j|))) →
      (∀ n < S.N, ∀ l < S.L, S.B n l ≠ 0 → Near num val ε (1 / (C * |S.B n l|))) →
      (∀ n < S.N, ∀ m < S.M, G n m ≠ 0 → Near num val ε (1 / (C * |G n m|))) →
      ∃ t body A' B' G', opampText num isFloat ids S C = .ok t ∧
        readDef val t = some ("opamp_analog_frontend", ⟨readPorts S.L S.M, body⟩) ∧
        (body.map Line.inst).Nodup ∧
        Close (1 / (1 - ε) ^ 2 - 1) S.N S.N A' S.A ∧ Close (1 / (1 - ε) ^ 2 - 1) S.N S.L B' S.B ∧
        Close (1 / (1 - ε) ^ 2 - 1) S.N S.M G' G ∧
        (∀ (law : Law) (sol : Sol), (∀ v i, law "opamp" v i → IdealOpamp v i) → (∀ l ∈ body, Obeys law sol l) →
          (∀ n < S.N, Kirchhoff sol body (fmt "vgnd_" n "_p") ∧ Kirchhoff sol body (fmt "vgnd_" n "_n")) →
          StateEquation S.N S.L S.M A' B' G'
            (fun n => diff sol (fmt "x" n "_p") (fmt "x" n "_n"))
            (fun l => diff sol (fmt "in" l "_p") (fmt "in" l "_n"))
            (fun m => diff sol (fmt "out" m "_p") (fmt "out" m "_n"))) ∧
        ∀ x u s, StateEquation S.N S.L S.M A' B' G' x u s →
          ∃ (law : Law) (sol : Sol), (∀ v i, law "opamp" v i → IdealOpamp v i) ∧ (∀ l ∈ body, Obeys law sol l) ∧
            (∀ n < S.N, Kirchhoff sol body (fmt "vgnd_" n "_p") ∧ Kirchhoff sol body (fmt "vgnd_" n "_n")) ∧
            (∀ n, diff sol (fmt "x" n "_p") (fmt "x" n "_n") = x n) ∧
            (∀ l, diff sol (fmt "in" l "_p") (fmt "in" l "_n") = u l) ∧
            ∀ m, diff sol (fmt "out" m "_p") (fmt "out" m "_n") = s m := by
  refine ⟨fun hG => by unfold opampText opampFrontend; rw [hG], ?_⟩
  intro G hG ε hε hn hA hB hH
  obtain ⟨s, hs, hnet, hnd⟩ := opamp_netlist ids S G hG C
  have hok := oaNet_ok S G C hn.legible (fun n a j b h => (hA n a j b h).legible) (fun n a j b h => (hB n a j b h).legible)
    fun n a j b h => (hH n a j b h).legible
  obtain ⟨t, ht, hr⟩ := sub_read (num := num) (val := val) (isFloat := isFloat) (ids := ids) "opamp_analog_frontend"
    (by decide) (by decide) (frontendPins S.L S.M) s (fun p hp => ⟨opamp_ports S G hG C hs p, ports_ok _ _ p hp⟩)
    (fun e he g hg => by
      have hm : e.line (Obj.name ids) s.wires ∈ oaNet S G C := by rw [← hnet]; exact List.mem_map_of_mem he
      exact absurd hg ((hok _ hm).2 g))
    (by rw [hnet]; exact fun l hl => (hok l hl).1)
  -- the circuit that is read is the one of the system with the values that are read
  have hnet2 : (s.netlist (Obj.name ids)).map (fun l => small (onLine (seen num val) l)) =
      (oaNet (seenSys (seen num val) S G C) (fun n j => ofRes (seen num val) C (G n j)) (seen num val C)).map small := by
    rw [hnet, ← oaNet_seen S G hε hC hn hA hB hH, List.map_map]
    rfl
  rw [hnet2, ports_plain] at hr
  obtain ⟨s2, hs2, hnet3, hnd3⟩ := opamp_netlist ids (seenSys (seen num val) S G C) _ rfl (seen num val C)
  have hC2 : seen num val C ≠ 0 := by
    obtain ⟨f, hf, f1, _⟩ := near_factor hC hn
    rw [hf]
    exact mul_ne_zero (by linarith) hC
  have hshape : ∀ l ∈ oaNet (seenSys (seen num val) S G C) (fun n j => ofRes (seen num val) C (G n j)) (seen num val C),
      Shape l := by
    rw [← oaNet_seen S G hε hC hn hA hB hH]
    intro l hl
    obtain ⟨k, hk, rfl⟩ := List.mem_map.1 hl
    exact (hok k hk).1.shape _
  have hfmt : ∀ (a b a' b' : String) (n : ℕ), a.toList.map Char.toLower = a'.toList →
      b.toList.map Char.toLower = b'.toList → fmt a' n b' = plain (fmt a n b).toList :=
    fun a b a' b' n ha hb => (plain_fmt a b a' b' n ha hb).symm
  have vp := fun n => hfmt "VGND_" "_P" "vgnd_" "_p" n (by decide) (by decide)
  have vn := fun n => hfmt "VGND_" "_N" "vgnd_" "_n" n (by decide) (by decide)
  have xp := fun n => hfmt "X" "_P" "x" "_p" n (by decide) (by decide)
  have xn := fun n => hfmt "X" "_N" "x" "_n" n (by decide) (by decide)
  have ip := fun n => hfmt "IN" "_P" "in" "_p" n (by decide) (by decide)
  have inn := fun n => hfmt "IN" "_N" "in" "_n" n (by decide) (by decide)
  have op := fun n => hfmt "OUT" "_P" "out" "_p" n (by decide) (by decide)
  have on := fun n => hfmt "OUT" "_N" "out" "_n" n (by decide) (by decide)
  have ok : ∀ a b n, a ∈ ["IN", "X", "OUT", "S", "VGND_"] → b ∈ ["_P", "_N"] → ∀ c ∈ (fmt a n b).toList, okU c = true :=
    fun a b n ha hb => (node_ok a b n ha hb).2
  refine ⟨t, _, fun n j => ofRes (seen num val) C (S.A n j), fun n j => ofRes (seen num val) C (S.B n j),
    fun n j => ofRes (seen num val) C (G n j), by unfold opampText; rw [hs]; exact ht, hr, ?_,
    seen_close hε hC hn hA, seen_close hε hC hn hB, seen_close hε hC hn hH, ?_, ?_⟩
  · refine insts_small hshape ?_
    rw [← hnet3, netlist_insts]
    exact hnd3
  · intro law sol hop hob hk
    obtain ⟨s3, hs3, key⟩ := (C52_state_equation ids (seenSys (seen num val) S G C) (seen num val C) hC2).2 _ rfl
    rw [hs2] at hs3
    cases hs3
    rw [hnet3] at key
    have := key law (pull sol) hop
      (fun l hl => (obeys_small (hshape l hl) law sol).1 (hob _ (List.mem_map_of_mem hl)))
      (fun n hn' => by
        obtain ⟨k1, k2⟩ := hk n hn'
        rw [vp n] at k1
        rw [vn n] at k2
        exact ⟨fun t => by rw [← leaving_small hshape sol (ok _ _ _ (by simp) (by simp)) t]; exact k1 t,
          fun t => by rw [← leaving_small hshape sol (ok _ _ _ (by simp) (by simp)) t]; exact k2 t⟩)
    simp only [xp, xn, ip, inn, op, on]
    exact this
  · intro x u sg hx
    obtain ⟨s3, hs3, law, sol, h1, h2, h3, h4, h5, h6⟩ := C52_realisable ids (seenSys (seen num val) S G C) (seen num val C)
      _ rfl x u sg hx
    rw [hs2] at hs3
    cases hs3
    rw [hnet3] at h2 h3
    have dpush : ∀ a b c d n, a ∈ ["IN", "X", "OUT", "S", "VGND_"] → b ∈ ["_P", "_N"] →
        c ∈ ["IN", "X", "OUT", "S", "VGND_"] → d ∈ ["_P", "_N"] →
        diff (push sol) (plain (fmt a n b).toList) (plain (fmt c n d).toList) = diff sol (fmt a n b) (fmt c n d) := by
      intro a b c d n ha hb hc hd
      have e1 := push_v sol (ok a b n ha hb)
      have e2 := push_v sol (ok c d n hc hd)
      change (push sol).v (plain (fmt a n b).toList) = _ at e1
      change (push sol).v (plain (fmt c n d).toList) = _ at e2
      unfold diff
      rw [e1, e2]
    refine ⟨law, push sol, h1, ?_, ?_, ?_, ?_, ?_⟩
    · intro l hl
      obtain ⟨k, hk, rfl⟩ := List.mem_map.1 hl
      exact obeys_push (hshape k hk) (h2 k hk)
    · intro n hn'
      obtain ⟨k1, k2⟩ := h3 n hn'
      rw [vp n, vn n]
      exact ⟨fun t => by rw [leaving_push hshape sol (ok _ _ _ (by simp) (by simp)) t]; exact k1 t,
        fun t => by rw [leaving_push hshape sol (ok _ _ _ (by simp) (by simp)) t]; exact k2 t⟩
    · intro n
      rw [xp, xn, dpush _ _ _ _ _ (by simp) (by simp) (by simp) (by simp)]
      exact h4 n
    · intro n
      rw [ip, inn, dpush _ _ _ _ _ (by simp) (by simp) (by simp) (by simp)]
      exact h5 n
    · intro n
      rw [op, on, dpush _ _ _ _ _ (by simp) (by simp) (by simp) (by simp)]
      exact h6 n

theorem close_zero {N J : ℕ} {A' A : ℕ → ℕ → ℝ} (h : Close 0 N J A' A) : ∀ n < N, ∀ j < J, A' n j = A n j := by
  intro n hn j hj
  have := h n hn j hj
  rw [zero_mul] at this
  have := abs_nonpos_iff.1 this
  linarith

/-- **C166**, exact values: if the printed numbers are read without error, the circuit that ngspice reads obeys the state
equation of the given system. -/
theorem C166_exact (S : Analog.Sys ℝ) (C : ℝ) (hC : C ≠ 0) (G : ℕ → ℕ → ℝ) (hG : S.Gamma = some G)
    (hn : Near num val 0 C) (hA : ∀ n < S.N, ∀ j < S.N, S.A n j ≠ 0 → Near num val 0 (1 / (C * |S.A n j|)))
    (hB : ∀ n < S.N, ∀ l < S.L, S.B n l ≠ 0 → Near num val 0 (1 / (C * |S.B n l|)))
    (hH : ∀ n < S.N, ∀ m < S.M, G n m ≠ 0 → Near num val 0 (1 / (C * |G n m|))) :
    ∃ t body, opampText num isFloat ids S C = .ok t ∧
      readDef val t = some ("opamp_analog_frontend", ⟨readPorts S.L S.M, body⟩) ∧
      ∀ (law : Law) (sol : Sol), (∀ v i, law "opamp" v i → IdealOpamp v i) → (∀ l ∈ body, Obeys law sol l) →
        (∀ n < S.N, Kirchhoff sol body (fmt "vgnd_" n "_p") ∧ Kirchhoff sol body (fmt "vgnd_" n "_n")) →
        StateEquation S.N S.L S.M S.A S.B G
          (fun n => diff sol (fmt "x" n "_p") (fmt "x" n "_n"))
          (fun l => diff sol (fmt "in" l "_p") (fmt "in" l "_n"))
          (fun m => diff sol (fmt "out" m "_p") (fmt "out" m "_n")) := by
  obtain ⟨t, body, A', B', G', ht, hr, _, c1, c2, c3, h, _⟩ :=
    (C166_opamp_text (num := num) (val := val) (isFloat := isFloat) (ids := ids) S C hC).2 G hG 0 (by norm_num) hn hA hB hH
  have e0 : (1 : ℝ) / (1 - 0) ^ 2 - 1 = 0 := by norm_num
  rw [e0] at c1 c2 c3
  refine ⟨t, body, ht, hr, fun law sol h1 h2 h3 n hn' z => ?_⟩
  refine (h law sol h1 h2 h3 n hn' z).congr_deriv ?_
  congr 1
  · congr 1
    · exact Finset.sum_congr rfl fun j hj => by rw [close_zero c1 n hn' j (Finset.mem_range.1 hj)]
    · exact Finset.sum_congr rfl fun j hj => by rw [close_zero c2 n hn' j (Finset.mem_range.1 hj)]
  · exact Finset.sum_congr rfl fun j hj => by rw [close_zero c3 n hn' j (Finset.mem_range.1 hj)]

/-- Three decimals, which is enough for the values `1` and `1/3`. -/
noncomputable def threeDecimals (r : ℝ) : Text := if r = 1 then "1.000".toList else "0.333".toList

/-- Reading the two texts. -/
noncomputable def readTwo (t : Text) : Option ℝ :=
  if t = "1.000".toList then some 1 else if t = "0.333".toList then some (333 / 1000) else none

/-- An integrator whose control entry is not a power of two. -/
def thirds : Analog.Sys ℝ := { oneIntegrator with B := fun _ _ => 3, Gamma := some fun _ _ => -3 }

theorem near_third : Near threeDecimals readTwo (1 / 1000) (1 / 3) := by
  refine ⟨?_, 333 / 1000, ?_, by norm_num [abs_le]⟩
  · unfold threeDecimals
    rw [if_neg (by norm_num)]
    decide
  · have e : threeDecimals (1 / 3) = "0.333".toList := if_neg (by norm_num)
    rw [e]
    unfold readTwo
    rw [if_neg (by decide), if_pos rfl]

theorem near_one : Near threeDecimals readTwo (1 / 1000) 1 := by
  refine ⟨?_, 1, ?_, by norm_num⟩
  · unfold threeDecimals
    rw [if_pos rfl]
    decide
  · unfold threeDecimals readTwo
    rw [if_pos rfl, if_pos rfl]

/-- The hypotheses of `C166_opamp_text` are met with values that are read with an error. -/
example : ∃ t body A' B' G', opampText threeDecimals (fun _ => true) (fun e k => fmt e k "") thirds 1 = .ok t ∧
    readDef readTwo t = some ("opamp_analog_frontend", ⟨readPorts 1 1, body⟩) ∧
    Close (1 / (1 - 1 / 1000) ^ 2 - 1) 1 1 A' thirds.A ∧ Close (1 / (1 - 1 / 1000) ^ 2 - 1) 1 1 B' thirds.B ∧
    Close (1 / (1 - 1 / 1000) ^ 2 - 1) 1 1 G' (fun _ _ => -3) := by
  have h3 : ∀ r : ℝ, |r| = 3 → Near threeDecimals readTwo (1 / 1000) (1 / (1 * |r|)) := by
    intro r hr
    rw [hr, one_mul]
    exact near_third
  obtain ⟨t, body, A', B', G', h1, h2, _, h4, h5, h6, _⟩ :=
    (C166_opamp_text (num := threeDecimals) (val := readTwo) (isFloat := fun _ => true) (ids := fun e k => fmt e k "")
      thirds 1 one_ne_zero).2 (fun _ _ => -3) rfl (1 / 1000) (by norm_num) near_one
      (fun n _ j _ h => absurd rfl h) (fun n _ j _ _ => h3 _ (by show |(3 : ℝ)| = 3; norm_num))
      (fun n _ j _ _ => h3 _ (by norm_num))
  exact ⟨t, body, A', B', G', h1, h2, h4, h5, h6⟩

/-- The hypotheses of `C166_exact` are met. -/
example : ∃ t body, opampText (fun r => if r = 1 then "1".toList else "0.5".toList) (fun _ => true)
      (fun e k => fmt e k "") oneIntegrator 1 = .ok t ∧
    readDef (fun t => if t = "1".toList then some 1 else some (1 / 2)) t =
      some ("opamp_analog_frontend", ⟨readPorts 1 1, body⟩) := by
  have near1 : Near (fun r : ℝ => if r = 1 then "1".toList else "0.5".toList)
      (fun t => if t = "1".toList then some 1 else some (1 / 2)) 0 1 := by
    refine ⟨?_, 1, ?_, by norm_num⟩ <;> dsimp only <;> rw [if_pos rfl]
    · decide
    · rw [if_pos rfl]
  have near2 : ∀ r : ℝ, |r| = 2 → Near (fun r : ℝ => if r = 1 then "1".toList else "0.5".toList)
      (fun t => if t = "1".toList then some 1 else some (1 / 2)) 0 (1 / (1 * |r|)) := by
    intro r hr
    rw [hr, one_mul]
    have e : (if (1 / 2 : ℝ) = 1 then "1".toList else "0.5".toList) = "0.5".toList := if_neg (by norm_num)
    refine ⟨?_, 1 / 2, ?_, by norm_num⟩ <;> dsimp only <;> rw [e]
    · decide
    · rw [if_neg (by decide)]
  obtain ⟨t, body, h1, h2, _⟩ := C166_exact (isFloat := fun _ => true) (ids := fun e k => fmt e k "") oneIntegrator 1
    one_ne_zero (fun _ _ => -2) rfl near1 (fun n _ j _ h => absurd rfl h)
    (fun n _ j _ _ => near2 _ (by show |(2 : ℝ)| = 2; norm_num)) (fun n _ j _ _ => near2 _ (by norm_num))
  exact ⟨t, body, h1, h2⟩

end Cbadc.FrontendText
