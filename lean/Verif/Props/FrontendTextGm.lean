import Verif.Lemmas.FrontendTextGm
import Verif.Props.FrontendText

/-!
# C168: the printed text of the Gm-C frontend is a circuit of the right system

`num` is what python prints for a number, `val` how ngspice reads it, `isFloat` whether python's `float` accepts it.
-/

namespace Cbadc.FrontendText

open Cbadc.Circuit Cbadc.Circuit.Spec Cbadc.Cards
open Cbadc.NetlistText (Text)

variable {num : ℝ → Text} {val : Text → Option ℝ} {isFloat : Text → Bool} {ids : String → ℕ → String}

/-- The terminals of a multi-input transconductor, as ngspice knows them. -/
def readOtaPorts (N L M : ℕ) : List String :=
  ["vss", "vdd", "vcm"] ++ (List.range N).map (fmt "x" · "_p") ++ (List.range N).map (fmt "x" · "_n")
    ++ (List.range L).map (fmt "in" · "_p") ++ (List.range L).map (fmt "in" · "_n")
    ++ (List.range M).map (fmt "s" · "_p") ++ (List.range M).map (fmt "s" · "_n")

theorem otaPorts_plain (N L M : ℕ) : (multiOtaPins N L M).map (fun p => plain p.toList) = readOtaPorts N L M := by
  unfold multiOtaPins readOtaPorts
  simp only [List.map_append, List.map_map]
  have h0 : ["VSS", "VDD", "VCM"].map (fun p => plain p.toList) = ["vss", "vdd", "vcm"] := by decide
  rw [h0]
  have e : ∀ (a b a' b' : String) (J : ℕ), a.toList.map Char.toLower = a'.toList → b.toList.map Char.toLower = b'.toList →
      (List.range J).map ((fun p : String => plain p.toList) ∘ fun n => fmt a n b) = (List.range J).map fun n => fmt a' n b' :=
    fun a b a' b' J ha hb => List.map_congr_left fun n _ => plain_fmt a b a' b' n ha hb
  rw [e "X" "_P" "x" "_p" N (by decide) (by decide), e "X" "_N" "x" "_n" N (by decide) (by decide),
    e "IN" "_P" "in" "_p" L (by decide) (by decide), e "IN" "_N" "in" "_n" L (by decide) (by decide),
    e "S" "_P" "s" "_p" M (by decide) (by decide), e "S" "_N" "s" "_n" M (by decide) (by decide)]

/-- The frontend's own terminals are printed under their own names. -/
theorem gmc_ports (N L M : ℕ) (C : ℝ) {s : Sub Obj ℝ} (hs : Sub.run (Obj.name ids) (gmcOps N L M C) .empty = .ok s)
    (p : String) : s.wires.node (Obj.name ids) (.own p) = p := by
  have hrun := run_eq (Obj.name ids) (gmcOps N L M C) .empty (gmc_nodup N L M C)
  rw [hrun] at hs
  cases hs
  have hc := gmc_conns N L M C
  refine hub_own GmPart.inst_inj GmPart.hubPin GmPart.hubNum ids _ (fun c h => (hc c h).1) ?_ p
  intro d hd
  obtain ⟨s, h1, h2⟩ := (hc d hd).2
  rw [h1]
  exact h2

/-- **C168** The constructor of the Gm-C frontend raises an error if a system with states has no control input matrix.
Otherwise the definitions that it prints are texts that ngspice reads, without regard to the case of letters, as a
sub-circuit with the terminals of the frontend and one sub-circuit for each transconductor, all with elements of
different names.  If the capacitances, transconductances and resistances are printed with a relative error of at most
`ε`, the quantities of this circuit are exactly the solutions of the state equation, with every state discharging at the
rate `r`, of a system whose matrices differ from the given ones, entry by entry, by a fraction of at most `2ε/(1-ε)`; and
`r` differs from a quarter of `b` over the gain, `b` being the largest entry of the input matrix, by a fraction of at most
`1/(1-ε)² - 1`. -/
theorem C168_gmc_text (S : Analog.Sys ℝ) (C : ℝ) (hC : C ≠ 0) (gain : Option ℝ) :
    (S.Gamma = none → 0 < S.N → gmcText num isFloat ids S C gain = .error .valueError) ∧
    ∀ G, S.Gamma = some G → ∀ ε < 1, Near num val ε (2 * C) →
      (∀ n < S.N, ∀ j < S.N, S.A n j ≠ 0 → Near num val ε |S.A n j * C| ∧ isFloat (num |S.A n j * C|) = true) →
      (∀ n < S.N, ∀ l < S.L, S.B n l ≠ 0 → Near num val ε |S.B n l * C| ∧ isFloat (num |S.B n l * C|) = true) →
      (∀ n < S.N, ∀ m < S.M, G n m ≠ 0 → Near num val ε |G n m * C| ∧ isFloat (num |G n m * C|) = true) →
      ∀ b, (∀ g, gain = some g → g ≠ 0 ∧ b ≠ 0 ∧ LargestEntry S.N S.L S.B b ∧ Near num val ε (2 * (g / (b * C)))) →
      ∃ (t : Text) (ts : List Text) (body : List (Line ℝ)) (defs : ℕ → List (Line ℝ)) (A' B' G' : ℕ → ℕ → ℝ) (r : ℝ),
        gmcText num isFloat ids S C gain = .ok (t, ts) ∧
        readDef val t = some ("ota_frontend", ⟨readPorts S.L S.M, body⟩) ∧ (body.map Line.inst).Nodup ∧
        ts.length = S.N ∧
        (∀ n < S.N, readDef val (ts.getD n []) =
          some (fmt "multi_input_ota_" n "", ⟨readOtaPorts S.N S.L S.M, defs n⟩) ∧ ((defs n).map Line.inst).Nodup) ∧
        Close (2 * ε / (1 - ε)) S.N S.N A' S.A ∧ Close (2 * ε / (1 - ε)) S.N S.L B' S.B ∧
        Close (2 * ε / (1 - ε)) S.N S.M G' G ∧
        (match gain with
          | none => r = 0
          | some g => |r - b / (4 * g)| ≤ (1 / (1 - ε) ^ 2 - 1) * |b / (4 * g)|) ∧
        (∀ (law : Law) (sol : Sol), (∀ v i, law "digital_control" v i → Senses S.N S.L S.M i) →
          (∀ n < S.N, ∀ v i, law (fmt "multi_input_ota_" n "") v i →
            ObeysDef law ⟨readOtaPorts S.N S.L S.M, defs n⟩ v i) →
          (∀ l ∈ body, Obeys law sol l) →
          (∀ n < S.N, Kirchhoff sol body (fmt "x" n "_p") ∧ Kirchhoff sol body (fmt "x" n "_n")) →
          StateEquation S.N S.L S.M (fun n j => A' n j - if n = j then r else 0) B' G'
            (fun n => diff sol (fmt "x" n "_p") (fmt "x" n "_n"))
            (fun l => diff sol (fmt "in" l "_p") (fmt "in" l "_n"))
            (fun m => diff sol (fmt "out" m "_p") (fmt "out" m "_n"))) ∧
        ∀ x u s, StateEquation S.N S.L S.M (fun n j => A' n j - if n = j then r else 0) B' G' x u s →
          ∃ (law : Law) (sol : Sol), (∀ v i, law "digital_control" v i → Senses S.N S.L S.M i) ∧
            (∀ n < S.N, ∀ v i, law (fmt "multi_input_ota_" n "") v i →
              ObeysDef law ⟨readOtaPorts S.N S.L S.M, defs n⟩ v i) ∧
            (∀ l ∈ body, Obeys law sol l) ∧
            (∀ n < S.N, Kirchhoff sol body (fmt "x" n "_p") ∧ Kirchhoff sol body (fmt "x" n "_n")) ∧
            (∀ n, diff sol (fmt "x" n "_p") (fmt "x" n "_n") = x n) ∧
            (∀ l, diff sol (fmt "in" l "_p") (fmt "in" l "_n") = u l) ∧
            ∀ m, diff sol (fmt "out" m "_p") (fmt "out" m "_n") = s m := by
  refine ⟨?_, ?_⟩
  · intro hG hN
    unfold gmcText multiOtaText
    rw [hG]
    obtain ⟨m, hm⟩ : ∃ m, S.N = m + 1 := ⟨S.N - 1, by omega⟩
    rw [hm, List.range_succ_eq_map, List.mapM_cons]
    rfl
  intro G hG ε hε hn hA hB hH b hg
  -- the largest entry
  have hb : gain ≠ none → absMax S.N S.L S.B = b := by
    intro h
    obtain ⟨g, rfl⟩ := Option.ne_none_iff_exists'.1 h
    exact absMax_eq (hg g rfl).2.2.1
  have hz : gain ≠ none → absMax S.N S.L S.B * C ≠ 0 := by
    intro h
    rw [hb h]
    obtain ⟨g, rfl⟩ := Option.ne_none_iff_exists'.1 h
    exact mul_ne_zero (hg g rfl).2.1 hC
  have hgl : ∀ g, gain = some g → Near num val ε (2 * (g / (absMax S.N S.L S.B * C))) := by
    intro g h
    rw [hb (by rw [h]; simp)]
    exact (hg g h).2.2.2
  have h2C : seen num val (2 * C) / 2 ≠ 0 := by
    obtain ⟨f, hf, f1, _⟩ := near_factor (mul_ne_zero two_ne_zero hC) hn
    rw [hf]
    exact div_ne_zero (mul_ne_zero (by linarith) (mul_ne_zero two_ne_zero hC)) two_ne_zero
  obtain ⟨S', hS'⟩ : ∃ S', S' = gmSys (seen num val) S G C := ⟨_, rfl⟩
  obtain ⟨G', hG'⟩ : ∃ G' : ℕ → ℕ → ℝ, G' = fun n j => ofGm (seen num val) C (G n j) := ⟨_, rfl⟩
  obtain ⟨C', hC'⟩ : ∃ C', C' = seen num val (2 * C) / 2 := ⟨_, rfl⟩
  have hb' : gain ≠ none → absMax S.N S.L S'.B ≠ 0 := by
    intro h h0
    refine hz h ?_
    have : absMax S.N S.L S.B = 0 := by
      rw [absMax_zero] at h0 ⊢
      intro n hn' l hl
      by_contra hne
      have := h0 n hn' l hl
      rw [hS'] at this
      exact (ofGm_spec hε hC hne hn (hB n hn' l hl hne).1).1 this
    rw [this, zero_mul]
  obtain ⟨gain', hgain'⟩ : ∃ g', g' = ofGain (seen num val) (absMax S.N S.L S.B) (absMax S.N S.L S'.B) C gain :=
    ⟨_, rfl⟩
  -- the transconductors
  have hread := fun n (hn' : n < S.N) => multiOta_read (num := num) (val := val) (isFloat := isFloat) (ids := ids) S G hG n C
    gain hz (fun j a h => ⟨(hA n hn' j a h).1.legible, (hA n hn' j a h).2⟩)
    (fun j a h => ⟨(hB n hn' j a h).1.legible, (hB n hn' j a h).2⟩)
    (fun j a h => ⟨(hH n hn' j a h).1.legible, (hH n hn' j a h).2⟩) (fun g h => (hgl g h).legible)
  have hmoOk := fun n (hn' : n < S.N) => moNet_ok (num := num) (val := val) S G n C gain
    (fun j a h => (hA n hn' j a h).1.legible) (fun j a h => (hB n hn' j a h).1.legible)
    (fun j a h => (hH n hn' j a h).1.legible) (fun g h => (hgl g h).legible)
  have hmo := fun n (hn' : n < S.N) => moNet_seen (num := num) (val := val) S G n gain hε hC hn
    (fun j a h => (hA n hn' j a h).1) (fun j a h => (hB n hn' j a h).1) (fun j a h => (hH n hn' j a h).1)
    (fun h => by rw [← hS']; exact mul_ne_zero (hb' h) h2C)
  rw [← hS', ← hG', ← hC', ← hgain'] at hmo
  have hmoShape : ∀ n < S.N, ∀ l ∈ moNet S' G' n C' gain', Shape l := by
    intro n hn'
    rw [← hmo n hn']
    intro l hl
    obtain ⟨k, hk, rfl⟩ := List.mem_map.1 hl
    exact (hmoOk n hn' k hk).shape _
  choose! tx htx htr using hread
  have hm := mapM_ok (List.range S.N) (fun n => multiOtaText num isFloat ids S n C gain) tx
    fun n h => htx n (List.mem_range.1 h)
  -- the frontend
  obtain ⟨s, hs, hnet, hnd⟩ := gmc_netlist ids S.N S.L S.M C
  have hgmOk := gmNet_ok S.N S.L S.M C hn.legible
  obtain ⟨t, ht, hr⟩ := sub_read (num := num) (val := val) (isFloat := isFloat) (ids := ids) "ota_frontend"
    (by decide) (by decide) (frontendPins S.L S.M) s (fun p hp => ⟨gmc_ports _ _ _ _ hs p, ports_ok _ _ p hp⟩)
    (fun e he g hd => by
      have hm : e.line (Obj.name ids) s.wires ∈ gmNet S.N S.L S.M C := by rw [← hnet]; exact List.mem_map_of_mem he
      exact absurd hd ((hgmOk _ hm).2 g))
    (by rw [hnet]; exact fun l hl => (hgmOk l hl).1)
  have hgm := gmNet_seen S.N S.L S.M (seen num val) C
  rw [← hC'] at hgm
  have hnet2 : (s.netlist (Obj.name ids)).map (fun l => small (onLine (seen num val) l)) =
      (gmNet S.N S.L S.M C').map small := by
    rw [hnet, ← hgm, List.map_map]
    rfl
  rw [hnet2, ports_plain] at hr
  have hshape : ∀ l ∈ gmNet S.N S.L S.M C', Shape l := by
    rw [← hgm]
    intro l hl
    obtain ⟨k, hk, rfl⟩ := List.mem_map.1 hl
    exact (hgmOk k hk).1.shape _
  have hndNet : ((gmNet S.N S.L S.M C').map Line.inst).Nodup := by
    obtain ⟨s2, _, hnet3, hnd3⟩ := gmc_netlist ids S.N S.L S.M C'
    rw [← hnet3, netlist_insts]
    exact hnd3
  -- names
  have hfmt : ∀ (a b a' b' : String) (n : ℕ), a.toList.map Char.toLower = a'.toList →
      b.toList.map Char.toLower = b'.toList → fmt a' n b' = plain (fmt a n b).toList :=
    fun a b a' b' n ha hb => (plain_fmt a b a' b' n ha hb).symm
  have xp := fun n => hfmt "X" "_P" "x" "_p" n (by decide) (by decide)
  have xn := fun n => hfmt "X" "_N" "x" "_n" n (by decide) (by decide)
  have ip := fun n => hfmt "IN" "_P" "in" "_p" n (by decide) (by decide)
  have inn := fun n => hfmt "IN" "_N" "in" "_n" n (by decide) (by decide)
  have op := fun n => hfmt "OUT" "_P" "out" "_p" n (by decide) (by decide)
  have on := fun n => hfmt "OUT" "_N" "out" "_n" n (by decide) (by decide)
  have ok : ∀ a b n, a ∈ ["IN", "X", "OUT", "S", "VGND_"] → b ∈ ["_P", "_N"] → ∀ c ∈ (fmt a n b).toList, okU c = true :=
    fun a b n ha hb => (node_ok a b n ha hb).2
  have hS : S'.N = S.N ∧ S'.L = S.L ∧ S'.M = S.M := by rw [hS']; exact ⟨rfl, rfl, rfl⟩
  have hdef : ∀ n < S.N, ∀ law v i, ObeysDef law ⟨readOtaPorts S.N S.L S.M, (moNet S' G' n C' gain').map small⟩ v i ↔
      ObeysDef law ⟨multiOtaPins S.N S.L S.M, moNet S' G' n C' gain'⟩ v i := by
    intro n hn' law v i
    rw [← otaPorts_plain]
    exact obeysDef_small (fun p hp => (otaPorts_ok _ _ _ p hp).2) (hmoShape n hn') law v i
  refine ⟨t, (List.range S.N).map tx, (gmNet S.N S.L S.M C').map small, fun n => (moNet S' G' n C' gain').map small,
    S'.A, S'.B, G', leak (absMax S.N S.L S'.B) gain', ?_, hr, insts_small hshape hndNet, by simp, ?_, ?_, ?_, ?_, ?_, ?_, ?_⟩
  · unfold gmcText
    rw [hm, hs]
    dsimp only
    rw [ht]
  · intro n hn'
    have e : ((List.range S.N).map tx).getD n [] = tx n := by
      simp [List.getD_eq_getElem?_getD, hn']
    rw [e, htr n hn', otaPorts_plain]
    refine ⟨?_, insts_small (hmoShape n hn') (moNet_nodup _ _ _ _ _)⟩
    dsimp only
    rw [← hmo n hn', List.map_map]
    rfl
  · rw [hS']; exact gm_close hε hC hn fun n a j b' h => (hA n a j b' h).1
  · rw [hS']; exact gm_close hε hC hn fun n a j b' h => (hB n a j b' h).1
  · rw [hG']; exact gm_close hε hC hn fun n a j b' h => (hH n a j b' h).1
  · have hl := leak_close (num := num) (val := val) (b := absMax S.N S.L S.B) (b' := absMax S.N S.L S'.B) (gain := gain) hε hC
      hn (fun g h => ⟨(hg g h).1, left_ne_zero_of_mul (hz (by rw [h]; simp)), hb' (by rw [h]; simp), hgl g h⟩)
    rw [← hgain'] at hl
    rcases gain with _ | g
    · simp only [hgain', ofGain, leak]
    · rw [hb (by simp)] at hl
      exact hl
  · intro law sol hctl hsub hob hk
    have key := gmc_behaviour S' G' C' (by rw [hC']; exact h2C) gain' law (pull sol) (by rw [hS.1, hS.2.1, hS.2.2]; exact hctl)
      (by
        rw [hS.1, hS.2.1, hS.2.2]
        exact fun n hn' v i h => (hdef n hn' law v i).1 (hsub n hn' v i h))
      (by
        rw [hS.1, hS.2.1, hS.2.2]
        exact fun l hl => (obeys_small (hshape l hl) law sol).1 (hob _ (List.mem_map_of_mem hl)))
      (by
        rw [hS.1, hS.2.1, hS.2.2]
        intro n hn'
        obtain ⟨k1, k2⟩ := hk n hn'
        rw [xp n] at k1
        rw [xn n] at k2
        exact ⟨fun t => by rw [← leaving_small hshape sol (ok _ _ _ (by simp) (by simp)) t]; exact k1 t,
          fun t => by rw [← leaving_small hshape sol (ok _ _ _ (by simp) (by simp)) t]; exact k2 t⟩)
    intro n hn' t
    have := key n (by rw [hS.1]; exact hn') t
    simp only [xp, xn, ip, inn, op, on]
    refine this.congr_deriv ?_
    rw [← damped_row S' G' _ n (by rw [hS.1]; exact hn'), hS.1, hS.2.1, hS.2.2]
    rfl
  · intro x u sg hx
    obtain ⟨law, sol, h1, h2, h3, h4, h5, h6, h7⟩ := gmc_realisable S' G' C' gain'
      (by rw [hS.1, hS.2.1, hS.2.2]; exact hndNet) x u sg (by rw [hS.1, hS.2.1, hS.2.2]; exact hx)
    rw [hS.1, hS.2.1, hS.2.2] at h1 h2 h3 h4
    have dpush : ∀ a b c d n, a ∈ ["IN", "X", "OUT", "S", "VGND_"] → b ∈ ["_P", "_N"] →
        c ∈ ["IN", "X", "OUT", "S", "VGND_"] → d ∈ ["_P", "_N"] →
        diff (push sol) (plain (fmt a n b).toList) (plain (fmt c n d).toList) = diff sol (fmt a n b) (fmt c n d) := by
      intro a b c d n ha hb hc hd
      have e1 := push_v sol (ok a b n ha hb)
      have e2 := push_v sol (ok c d n hc hd)
      change (push sol).v (plain (fmt a n b).toList) = _ at e1
      change (push sol).v (plain (fmt c n d).toList) = _ at e2
      unfold diff
      rw [e1, e2]
    refine ⟨law, push sol, h1, fun n hn' v i h => (hdef n hn' law v i).2 (h2 n hn' v i h), ?_, ?_, ?_, ?_, ?_⟩
    · intro l hl
      obtain ⟨k, hk, rfl⟩ := List.mem_map.1 hl
      exact obeys_push (hshape k hk) (h3 k hk)
    · intro n hn'
      obtain ⟨k1, k2⟩ := h4 n hn'
      rw [xp n, xn n]
      exact ⟨fun t => by rw [leaving_push hshape sol (ok _ _ _ (by simp) (by simp)) t]; exact k1 t,
        fun t => by rw [leaving_push hshape sol (ok _ _ _ (by simp) (by simp)) t]; exact k2 t⟩
    · intro n
      rw [xp, xn, dpush _ _ _ _ _ (by simp) (by simp) (by simp) (by simp)]
      exact h5 n
    · intro n
      rw [ip, inn, dpush _ _ _ _ _ (by simp) (by simp) (by simp) (by simp)]
      exact h6 n
    · intro n
      rw [op, on, dpush _ _ _ _ _ (by simp) (by simp) (by simp) (by simp)]
      exact h7 n

/-- **C168**, the other error: a finite gain and a vanishing input matrix. -/
theorem C168_division (S : Analog.Sys ℝ) (C g : ℝ) (G : ℕ → ℕ → ℝ) (hG : S.Gamma = some G) (hN : 0 < S.N)
    (hB : ∀ n < S.N, ∀ l < S.L, S.B n l = 0) : gmcText num isFloat ids S C (some g) = .error .zeroDivision := by
  have h1 : ∀ n, multiOtaText num isFloat ids S n C (some g) = .error .zeroDivision := by
    intro n
    unfold multiOtaText
    rw [hG]
    dsimp only
    rw [if_pos ⟨by simp, by rw [absMax_zero.2 hB, zero_mul]⟩]
  unfold gmcText
  simp only [h1]
  obtain ⟨m, hm⟩ : ∃ m, S.N = m + 1 := ⟨S.N - 1, by omega⟩
  rw [hm, List.range_succ_eq_map, List.mapM_cons]
  rfl

/-- The hypotheses of `C168_division` are met. -/
example : gmcText num isFloat ids { oneIntegrator with B := fun _ _ => 0 } 1 (some 10) = .error .zeroDivision :=
  C168_division _ 1 10 (fun _ _ => -2) rfl (by decide) fun _ _ _ _ => rfl

/-- **C168**, exact values and ideal transconductors: if the printed numbers are read without error, the circuit that
ngspice reads obeys the state equation of the given system. -/
theorem C168_exact (S : Analog.Sys ℝ) (C : ℝ) (hC : C ≠ 0) (G : ℕ → ℕ → ℝ) (hG : S.Gamma = some G)
    (hn : Near num val 0 (2 * C))
    (hA : ∀ n < S.N, ∀ j < S.N, S.A n j ≠ 0 → Near num val 0 |S.A n j * C| ∧ isFloat (num |S.A n j * C|) = true)
    (hB : ∀ n < S.N, ∀ l < S.L, S.B n l ≠ 0 → Near num val 0 |S.B n l * C| ∧ isFloat (num |S.B n l * C|) = true)
    (hH : ∀ n < S.N, ∀ m < S.M, G n m ≠ 0 → Near num val 0 |G n m * C| ∧ isFloat (num |G n m * C|) = true) :
    ∃ (t : Text) (ts : List Text) (body : List (Line ℝ)) (defs : ℕ → List (Line ℝ)),
      gmcText num isFloat ids S C none = .ok (t, ts) ∧
      readDef val t = some ("ota_frontend", ⟨readPorts S.L S.M, body⟩) ∧
      (∀ n < S.N, readDef val (ts.getD n []) =
        some (fmt "multi_input_ota_" n "", ⟨readOtaPorts S.N S.L S.M, defs n⟩)) ∧
      ∀ (law : Law) (sol : Sol), (∀ v i, law "digital_control" v i → Senses S.N S.L S.M i) →
        (∀ n < S.N, ∀ v i, law (fmt "multi_input_ota_" n "") v i →
          ObeysDef law ⟨readOtaPorts S.N S.L S.M, defs n⟩ v i) →
        (∀ l ∈ body, Obeys law sol l) →
        (∀ n < S.N, Kirchhoff sol body (fmt "x" n "_p") ∧ Kirchhoff sol body (fmt "x" n "_n")) →
        StateEquation S.N S.L S.M S.A S.B G
          (fun n => diff sol (fmt "x" n "_p") (fmt "x" n "_n"))
          (fun l => diff sol (fmt "in" l "_p") (fmt "in" l "_n"))
          (fun m => diff sol (fmt "out" m "_p") (fmt "out" m "_n")) := by
  obtain ⟨t, ts, body, defs, A', B', G', r, ht, hr, _, _, hd, c1, c2, c3, c4, h, _⟩ :=
    (C168_gmc_text (num := num) (val := val) (isFloat := isFloat) (ids := ids) S C hC none).2 G hG 0 (by norm_num) hn hA hB
      hH 0 (fun g h => by cases h)
  have e0 : (2 : ℝ) * 0 / (1 - 0) = 0 := by norm_num
  rw [e0] at c1 c2 c3
  dsimp only at c4
  subst c4
  refine ⟨t, ts, body, defs, ht, hr, fun n hn' => (hd n hn').1, fun law sol h1 h2 h3 h4 n hn' z => ?_⟩
  refine (h law sol h1 h2 h3 h4 n hn' z).congr_deriv ?_
  congr 1
  · congr 1
    · exact Finset.sum_congr rfl fun j hj => by dsimp only; rw [close_zero c1 n hn' j (Finset.mem_range.1 hj)]; simp
    · exact Finset.sum_congr rfl fun j hj => by rw [close_zero c2 n hn' j (Finset.mem_range.1 hj)]
  · exact Finset.sum_congr rfl fun j hj => by rw [close_zero c3 n hn' j (Finset.mem_range.1 hj)]

/-- One digit too much for the value `2`. -/
noncomputable def rough (r : ℝ) : Text := if r = 2 then "2.1".toList else "4".toList

/-- Reading the two texts. -/
noncomputable def readRough (t : Text) : Option ℝ :=
  if t = "2.1".toList then some (21 / 10) else if t = "4".toList then some 4 else none

theorem rough_two : Near rough readRough (1 / 10) 2 := by
  have e : rough 2 = "2.1".toList := if_pos rfl
  refine ⟨by rw [e]; decide, 21 / 10, ?_, by norm_num [abs_le]⟩
  rw [e]
  exact if_pos rfl

theorem rough_four : Near rough readRough (1 / 10) 4 := by
  have e : rough 4 = "4".toList := if_neg (by norm_num)
  refine ⟨by rw [e]; decide, 4, ?_, by norm_num⟩
  rw [e]
  unfold readRough
  rw [if_neg (by decide), if_pos rfl]

/-- The hypotheses of `C168_gmc_text` are met with a finite gain and values that are read with an error. -/
example : ∃ (t : Text) (ts : List Text) (body : List (Line ℝ)) (r : ℝ),
    gmcText rough (fun _ => true) (fun e k => fmt e k "") oneIntegrator 1 (some 4) = .ok (t, ts) ∧
    readDef readRough t = some ("ota_frontend", ⟨readPorts 1 1, body⟩) ∧ ts.length = 1 ∧
    |r - 2 / (4 * 4)| ≤ (1 / (1 - 1 / 10) ^ 2 - 1) * |2 / (4 * 4)| := by
  have h2 : ∀ r : ℝ, |r| = 2 → Near rough readRough (1 / 10) |r * 1| ∧ (fun _ : Text => true) (rough |r * 1|) = true := by
    intro r hr
    rw [mul_one, hr]
    exact ⟨rough_two, rfl⟩
  obtain ⟨t, ts, body, _, _, _, _, r, h1, h2, _, h3, _, _, _, _, h4, _⟩ :=
    (C168_gmc_text (num := rough) (val := readRough) (isFloat := fun _ => true) (ids := fun e k => fmt e k "")
      oneIntegrator 1 one_ne_zero (some 4)).2 (fun _ _ => -2) rfl (1 / 10) (by norm_num) (by rw [mul_one]; exact rough_two)
      (fun n _ j _ h => absurd rfl h) (fun n _ j _ _ => h2 _ (by show |(2 : ℝ)| = 2; norm_num))
      (fun n _ j _ _ => h2 _ (by norm_num)) 2 (fun g h => by
        cases h
        refine ⟨by norm_num, by norm_num, oneIntegrator_largest, ?_⟩
        have e : (2 : ℝ) * (4 / (2 * 1)) = 4 := by norm_num
        rw [e]
        exact rough_four)
  exact ⟨t, ts, body, r, h1, h2, h3, h4⟩

/-- The hypotheses of `C168_exact` are met. -/
example : ∃ (t : Text) (ts : List Text) (body : List (Line ℝ)),
    gmcText (fun _ => "2".toList) (fun _ => true) (fun e k => fmt e k "") oneIntegrator 1 none = .ok (t, ts) ∧
    readDef (fun _ => some 2) t = some ("ota_frontend", ⟨readPorts 1 1, body⟩) := by
  have near2 : Near (fun _ => "2".toList) (fun _ => some 2) 0 2 := ⟨by decide, 2, rfl, by norm_num⟩
  have h2 : ∀ r : ℝ, |r| = 2 → Near (fun _ => "2".toList) (fun _ => some 2) 0 |r * 1| ∧
      (fun _ : Text => true) "2".toList = true := by
    intro r hr
    rw [mul_one, hr]
    exact ⟨near2, rfl⟩
  obtain ⟨t, ts, body, _, h1, h3, _⟩ := C168_exact (num := fun _ => "2".toList) (val := fun _ => some 2)
    (isFloat := fun _ => true) (ids := fun e k => fmt e k "") oneIntegrator 1 one_ne_zero (fun _ _ => -2) rfl
    (by rw [mul_one]; exact near2) (fun n _ j _ h => absurd rfl h)
    (fun n _ j _ _ => h2 _ (by show |(2 : ℝ)| = 2; norm_num)) (fun n _ j _ _ => h2 _ (by norm_num))
  exact ⟨t, ts, body, h1, h3⟩

end Cbadc.FrontendText
