import Verif.Spec.NetlistText

/-! # C130: netlists as elements -/

namespace Cbadc.NetlistText
open Spec

/-! ## Lines and words -/

theorem break_iff (c : Char) : Break [c] ↔ isBreak c = true := by
  unfold Break isBreak
  simp

theorem space_iff (c : Char) : Space c ↔ isSpace c = true := by
  unfold Space isSpace
  simp

theorem splitlinesFrom_whole (l : Text) (h : Whole l) (cur t : Text) (hl : l ≠ []) (cr : Bool)
    (hcr : cr = true → l.head? ≠ some '\n') :
    splitlinesFrom cr cur (l ++ t) = splitlinesFrom false (l.reverse ++ cur) t := by
  induction l generalizing cur cr with
  | nil => exact absurd rfl hl
  | cons c cs ih =>
    have hc : isBreak c = false := by
      have := h c List.mem_cons_self
      rw [break_iff] at this
      simpa using this
    have hn : c ≠ '\n' := by
      rintro rfl
      revert hc
      decide
    rw [List.cons_append, splitlinesFrom]
    rw [if_neg (by simp [hn]), if_neg (by simp [hc])]
    by_cases hcs : cs = []
    · subst hcs
      rfl
    · rw [ih (fun x hx => h x (List.mem_cons_of_mem _ hx)) (c :: cur) hcs false (by simp)]
      simp

theorem lf_break : isBreak '\n' = true := by decide
theorem cr_break : isBreak '\r' = true := by decide

/-- The lines of a text are those `splitlines` finds. -/
theorem lines_split {t : Text} {ls : List Text} (h : Lines t ls) (cr : Bool) (hcr : cr = true → t.head? ≠ some '\n') :
    splitlinesFrom cr [] t = ls := by
  induction h generalizing cr with
  | nil => rfl
  | last l hl hw =>
    have := splitlinesFrom_whole l hw [] [] hl cr hcr
    rw [List.append_nil, List.append_nil] at this
    rw [this, splitlinesFrom, if_neg (by simpa using hl), List.reverse_reverse]
  | cons l b rest ls hw hb hr _ ih =>
    have key : ∀ (cr : Bool) (cur : Text), (cr = true → (b ++ rest).head? ≠ some '\n') →
        splitlinesFrom cr cur (b ++ rest) = cur.reverse :: ls := by
      intro cr cur hcr
      rcases hb with rfl | ⟨c, rfl, hc⟩
      · change splitlinesFrom cr cur ('\r' :: '\n' :: rest) = _
        rw [splitlinesFrom, if_neg (by simp), if_pos cr_break, splitlinesFrom, if_pos (by simp)]
        rw [ih false (by simp)]
      · change splitlinesFrom cr cur (c :: rest) = _
        have hb' : isBreak c = true := (break_iff c).mp (Or.inr ⟨c, rfl, hc⟩)
        rw [splitlinesFrom, if_neg (by
          intro h
          simp only [Bool.and_eq_true, beq_iff_eq] at h
          exact hcr h.1 (by simp [h.2])), if_pos hb']
        rw [ih (c == '\r') (by
          intro h
          exact hr (by rw [beq_iff_eq.mp h]))]
    by_cases hl : l = []
    · subst hl
      have := key cr [] (by simpa using hcr)
      simpa using this
    · rw [List.append_assoc, splitlinesFrom_whole l hw [] (b ++ rest) hl cr (by
        intro h
        have := hcr h
        cases l with
        | nil => exact absurd rfl hl
        | cons c cs => simpa using this), key false _ (by simp), List.append_nil, List.reverse_reverse]

theorem lines_exist_aux (t : Text) : ∀ cur : Text, Whole cur →
    ∃ ls, Lines (cur.reverse ++ t) ls := by
  intro cur hw
  obtain ⟨n, hn⟩ : ∃ n, t.length ≤ n := ⟨_, Nat.le_refl _⟩
  have rev : ∀ cur : Text, Whole cur → Whole cur.reverse := fun cur h c hc => h c (List.mem_reverse.mp hc)
  induction n generalizing t cur with
  | zero =>
    have : t = [] := List.eq_nil_of_length_eq_zero (by omega)
    subst this
    rw [List.append_nil]
    by_cases hc : cur = []
    · subst hc
      exact ⟨[], .nil⟩
    · exact ⟨_, .last _ (by simpa using hc) (rev _ hw)⟩
  | succ n ih =>
    cases t with
    | nil =>
      rw [List.append_nil]
      by_cases hc : cur = []
      · subst hc
        exact ⟨[], .nil⟩
      · exact ⟨_, .last _ (by simpa using hc) (rev _ hw)⟩
    | cons c cs =>
      by_cases hb : Break [c]
      · by_cases hcr : c = '\r' ∧ cs.head? = some '\n'
        · obtain ⟨rfl, hcs⟩ := hcr
          cases cs with
          | nil => simp at hcs
          | cons d ds =>
            obtain rfl : d = '\n' := by simpa using hcs
            obtain ⟨ls, hls⟩ := ih ds [] (by intro c hc; cases hc) (by simp at hn; omega)
            have := Lines.cons cur.reverse ['\r', '\n'] ds ls (rev _ hw) (Or.inl rfl) (by simp) hls
            exact ⟨_, by simpa using this⟩
        · obtain ⟨ls, hls⟩ := ih cs [] (by intro c hc; cases hc) (by simp at hn; omega)
          have := Lines.cons cur.reverse [c] cs ls (rev _ hw) hb (by
            intro h hh
            exact hcr ⟨by simpa using h, hh⟩) hls
          exact ⟨_, by simpa using this⟩
      · obtain ⟨ls, hls⟩ := ih cs (c :: cur) (by
          intro d hd
          rcases List.mem_cons.mp hd with rfl | hd
          · exact hb
          · exact hw d hd) (by simp at hn; omega)
        exact ⟨ls, by simpa using hls⟩

theorem lines_iff (t : Text) (ls : List Text) : Lines t ls ↔ splitlines t = ls := by
  constructor
  · exact fun h => lines_split h false (by simp)
  · rintro rfl
    obtain ⟨ls, h⟩ := lines_exist_aux t [] (by intro c hc; cases hc)
    rw [show ([] : Text).reverse ++ t = t from rfl] at h
    rw [splitlines, lines_split h false (by simp)]
    exact h

theorem splitFrom_gap (g : Text) (h : ∀ c ∈ g, Space c) (t : Text) : splitFrom [] (g ++ t) = splitFrom [] t := by
  induction g with
  | nil => rfl
  | cons c cs ih =>
    rw [List.cons_append, splitFrom, if_pos ((space_iff c).mp (h c List.mem_cons_self)), if_pos rfl]
    exact ih fun x hx => h x (List.mem_cons_of_mem _ hx)

theorem splitFrom_word (w : Text) (h : ∀ c ∈ w, ¬ Space c) (cur t : Text) :
    splitFrom cur (w ++ t) = splitFrom (w.reverse ++ cur) t := by
  induction w generalizing cur with
  | nil => rfl
  | cons c cs ih =>
    have := h c List.mem_cons_self
    rw [space_iff] at this
    rw [List.cons_append, splitFrom, if_neg this, ih fun x hx => h x (List.mem_cons_of_mem _ hx)]
    simp

theorem words_split {l : Text} {ws : List Text} (h : Words l ws) : split l = ws := by
  unfold split
  induction h with
  | nil g hg =>
    have := splitFrom_gap g hg []
    rw [List.append_nil] at this
    rw [this]
    rfl
  | cons g w rest ws hg hw hr _ ih =>
    rw [List.append_assoc, splitFrom_gap g hg, splitFrom_word w hw.2, List.append_nil]
    cases rest with
    | nil =>
      rw [splitFrom, if_neg (by simpa using hw.1), List.reverse_reverse]
      have : ws = [] := by rw [← ih]; rfl
      rw [this]
    | cons c cs =>
      have hc := (space_iff c).mp (hr c rfl)
      rw [splitFrom, if_pos hc, if_neg (by simpa using hw.1), List.reverse_reverse]
      rw [splitFrom, if_pos hc, if_pos rfl] at ih
      rw [ih]

theorem words_exist (l : Text) : (∃ ws, Words l ws) ∧ ∀ cur : Text, Word cur → ∃ ws, Words (cur ++ l) ws := by
  induction l with
  | nil =>
    refine ⟨⟨[], .nil [] (by simp)⟩, ?_⟩
    intro cur hc
    have := Words.cons [] cur [] [] (by simp) hc (by simp) (.nil [] (by simp))
    exact ⟨_, by simpa using this⟩
  | cons c cs ih =>
    by_cases hs : Space c
    · have key : ∃ ws, Words (c :: cs) ws := by
        obtain ⟨ws, h⟩ := ih.1
        cases h with
        | nil g hg =>
          exact ⟨[], .nil _ (by
            intro x hx
            rcases List.mem_cons.mp hx with rfl | hx
            · exact hs
            · exact hg x hx)⟩
        | cons g w rest ws hg hw hr hws =>
          refine ⟨_, Words.cons (c :: g) w rest ws ?_ hw hr hws⟩
          intro x hx
          rcases List.mem_cons.mp hx with rfl | hx
          · exact hs
          · exact hg x hx
      refine ⟨key, ?_⟩
      intro cur hc
      obtain ⟨ws, h⟩ := key
      have := Words.cons [] cur (c :: cs) ws (by simp) hc (by simpa using hs) h
      exact ⟨_, by simpa using this⟩
    · constructor
      · obtain ⟨ws, h⟩ := ih.2 [c] ⟨by simp, by simpa using hs⟩
        exact ⟨ws, h⟩
      · intro cur hc
        obtain ⟨ws, h⟩ := ih.2 (cur ++ [c]) ⟨by simp, by
          intro x hx
          rcases List.mem_append.mp hx with hx | hx
          · exact hc.2 x hx
          · rw [List.mem_singleton.mp hx]
            exact hs⟩
        exact ⟨ws, by simpa using h⟩

theorem words_iff (l : Text) (ws : List Text) : Words l ws ↔ split l = ws := by
  constructor
  · exact words_split
  · rintro rfl
    obtain ⟨ws, h⟩ := (words_exist l).1
    rw [words_split h]
    exact h

theorem findEnds_iff (ls : List Text) (f : Bool) : 
    (∀ b, findEnds f ls = .ok b ↔ (∀ l ∈ ls, ∃ w ws, Words l (w :: ws)) ∧
      (b = true ↔ f = true ∨ ∃ l ∈ ls, ∃ w ws, Words l (w :: ws) ∧ lower w = ".ends".toList)) ∧
    ((∃ l ∈ ls, Words l []) → findEnds f ls = .error .indexError) := by
  induction ls generalizing f with
  | nil =>
    simp only [findEnds, List.not_mem_nil, false_imp_iff, implies_true, true_and, false_and, exists_false, or_false,
      and_true, Except.ok.injEq]
    intro b
    cases b <;> cases f <;> simp
  | cons l ls ih =>
    cases hs : split l with
    | nil =>
      have hw : Words l [] := (words_iff l []).mpr hs
      constructor
      · intro b
        constructor
        · intro h
          rw [findEnds, hs] at h
          cases h
        · rintro ⟨h, -⟩
          obtain ⟨w, ws, h⟩ := h l List.mem_cons_self
          rw [words_iff, hs] at h
          cases h
      · intro _
        rw [findEnds, hs]
    | cons w ws =>
      have hw : Words l (w :: ws) := (words_iff l _).mpr hs
      have hu : ∀ w' ws', Words l (w' :: ws') → w' = w := by
        intro w' ws' h
        rw [words_iff, hs] at h
        exact (List.cons.inj h).1.symm
      have hf : findEnds f (l :: ls) = findEnds (if lower w = ".ends".toList then true else f) ls := by
        rw [findEnds, hs]
      rw [hf]
      constructor
      · intro b
        rw [(ih _).1 b]
        refine and_congr ?_ ?_
        · rw [List.forall_mem_cons]
          exact ⟨fun h => ⟨⟨w, ws, hw⟩, h⟩, fun h => h.2⟩
        · refine Iff.of_eq ?_
          congr 1
          refine propext ?_
          by_cases hl : lower w = ".ends".toList
          · rw [if_pos hl]
            simp only [true_or, true_iff]
            exact Or.inr ⟨l, List.mem_cons_self, w, ws, hw, hl⟩
          · rw [if_neg hl]
            constructor
            · rintro (h | ⟨l', h', h⟩)
              · exact Or.inl h
              · exact Or.inr ⟨l', List.mem_cons_of_mem _ h', h⟩
            · rintro (h | ⟨l', h', w', ws', h, e⟩)
              · exact Or.inl h
              · rcases List.mem_cons.mp h' with rfl | h'
                · rw [hu w' ws' h] at e
                  exact absurd e hl
                · exact Or.inr ⟨l', h', w', ws', h, e⟩
      · rintro ⟨l', h', h⟩
        rcases List.mem_cons.mp h' with rfl | h'
        · rw [words_iff, hs] at h
          cases h
        · exact (ih _).2 ⟨l', h', h⟩

/-! ## The property -/

/-- The text is taken for the name of a file. -/
def FileName (t : Text) : Prop := ".txt".toList <:+ t ∨ ".net".toList <:+ t ∨ ".cir".toList <:+ t

/-- C130, which netlists are accepted: exactly the readable ones, with the name in lower case, the terminals in
order and in upper case, and the text itself as the only definition. -/
theorem C130_accepts (files : Text → Res Text) (t : Text) (hf : ¬ FileName t) (e : Element) :
    netlistElement files t = .ok e ↔
      ∃ name terminals, Readable t name terminals ∧ e.name = name.map Char.toLower ∧
        e.terminals = terminals.map (fun x => x.map Char.toUpper) ∧ e.definitions = [t] := by
  have h0 : netlistElement files t = parse t := by
    unfold netlistElement
    exact if_neg hf
  have hkw : lower ".subckt".toList = ".subckt".toList := by decide +kernel
  have hen : lower ".ends".toList = ".ends".toList := by decide +kernel
  rw [h0]
  constructor
  · intro h
    unfold parse at h
    cases hl : splitlines t with
    | nil => rw [hl] at h; cases h
    | cons first rest =>
      rw [hl] at h
      dsimp only at h
      cases hw : split first with
      | nil => rw [hw] at h; cases h
      | cons kw args =>
        rw [hw] at h
        dsimp only at h
        by_cases hk : lower kw = ".subckt".toList
        · rw [if_neg (by simpa using hk)] at h
          cases hfe : findEnds false rest with
          | error x => rw [hfe] at h; cases h
          | ok b =>
            rw [hfe] at h
            dsimp only at h
            cases b with
            | false => simp at h
            | true =>
              rw [if_neg (by simp)] at h
              obtain ⟨hne, hex⟩ := ((findEnds_iff rest false).1 true).mp hfe
              cases args with
              | nil => cases h
              | cons name ts =>
                dsimp only at h
                by_cases hnd : (ts.map upper).Nodup
                · rw [if_pos hnd] at h
                  injection h with h
                  subst h
                  refine ⟨name, ts, ⟨first, rest, kw, (lines_iff _ _).mpr hl, (words_iff _ _).mpr hw, ?_, hne, ?_, ?_⟩,
                    rfl, rfl, rfl⟩
                  · exact hk.trans hkw.symm
                  · rcases hex.mp rfl with h | ⟨l, hl, w, ws, h1, h2⟩
                    · cases h
                    · exact ⟨l, hl, w, ws, h1, h2.trans hen.symm⟩
                  · exact List.pairwise_map.mp hnd
                · rw [if_neg hnd] at h
                  cases h
        · rw [if_pos hk] at h
          cases h
  · rintro ⟨name, ts, ⟨first, rest, kw, hl, hw, hk, hne, ⟨l, hl', w, ws, h1, h2⟩, hnd⟩, e1, e2, e3⟩
    have hfe : findEnds false rest = .ok true :=
      ((findEnds_iff rest false).1 true).mpr ⟨hne, fun _ => Or.inr ⟨l, hl', w, ws, h1, Eq.trans h2 hen⟩, fun _ => rfl⟩
    unfold parse
    rw [(lines_iff _ _).mp hl]
    dsimp only
    rw [(words_iff _ _).mp hw]
    dsimp only
    rw [if_neg (by rw [show lower kw = ".subckt".toList from Eq.trans hk hkw]; simp), hfe]
    dsimp only
    rw [if_neg (by simp), if_pos (show (ts.map upper).Nodup from List.pairwise_map.mpr hnd)]
    obtain ⟨n, tm, nl⟩ := e
    simp only [Element.definitions, List.cons.injEq, and_true] at e1 e2 e3
    subst e1 e2 e3
    rfl

/-- The function after the two first splits. -/
theorem parse_words (t first : Text) (rest : List Text) (kw : Text) (args : List Text)
    (hl : splitlines t = first :: rest) :
    split first = kw :: args → parse t = if lower kw ≠ ".subckt".toList then .error .valueError
      else
        match findEnds false rest with
        | .error e => .error e
        | .ok found =>
          if found = false then .error .valueError
          else
            match args with
            | [] => .error .indexError
            | name :: ts =>
              if (ts.map upper).Nodup then .ok ⟨lower name, ts.map upper, t⟩
              else .error .valueError := by
  intro hs
  unfold parse
  rw [hl]
  dsimp only
  rw [hs]
  rfl

/-- C130, the errors: a netlist without lines, with a blank first line, with a blank line after `.subckt` or
without a name is refused with an `IndexError`; one that begins otherwise, has no `.ends` or two terminals of one name with a
`ValueError`. -/
theorem C130_errors (files : Text → Res Text) (t : Text) (hf : ¬ FileName t) :
    (Lines t [] → netlistElement files t = .error .indexError) ∧
    (∀ first rest, Lines t (first :: rest) →
      (Words first [] → netlistElement files t = .error .indexError) ∧
      ∀ kw args, Words first (kw :: args) →
        (¬ SameLetters kw ".subckt".toList → netlistElement files t = .error .valueError) ∧
        (SameLetters kw ".subckt".toList →
          ((∃ l ∈ rest, Words l []) → netlistElement files t = .error .indexError) ∧
          ((∀ l ∈ rest, ¬ Words l []) →
            ((∀ l ∈ rest, ∀ w ws, Words l (w :: ws) → ¬ SameLetters w ".ends".toList) →
              netlistElement files t = .error .valueError) ∧
            ((∃ l ∈ rest, ∃ w ws, Words l (w :: ws) ∧ SameLetters w ".ends".toList) →
              (args = [] → netlistElement files t = .error .indexError) ∧
              ∀ name terminals, args = name :: terminals →
                ¬ terminals.Pairwise (fun a b => ¬ a.map Char.toUpper = b.map Char.toUpper) →
                netlistElement files t = .error .valueError)))) := by
  have h0 : netlistElement files t = parse t := by
    unfold netlistElement
    exact if_neg hf
  have hkw : lower ".subckt".toList = ".subckt".toList := by decide +kernel
  have hen : lower ".ends".toList = ".ends".toList := by decide +kernel
  rw [h0]
  refine ⟨?_, ?_⟩
  · intro hl
    unfold parse
    rw [(lines_iff _ _).mp hl]
  · intro first rest hl
    refine ⟨?_, ?_⟩
    · intro hw
      unfold parse
      rw [(lines_iff _ _).mp hl]
      dsimp only
      rw [(words_iff _ _).mp hw]
    · intro kw args hw
      have hs := (words_iff _ _).mp hw
      have hp := parse_words t first rest kw args ((lines_iff _ _).mp hl) hs
      rw [hp]
      refine ⟨?_, ?_⟩
      · intro hk
        rw [if_pos]
        intro h
        exact hk (h.trans hkw.symm)
      · intro hk
        rw [if_neg (by rw [show lower kw = ".subckt".toList from Eq.trans hk hkw]; simp)]
        refine ⟨?_, ?_⟩
        · intro hb
          rw [(findEnds_iff rest false).2 hb]
        · intro hnb
          have hne : ∀ l ∈ rest, ∃ w ws, Words l (w :: ws) := by
            intro l hl
            cases hs : split l with
            | nil => exact absurd ((words_iff _ _).mpr hs) (hnb l hl)
            | cons w ws => exact ⟨w, ws, (words_iff _ _).mpr hs⟩
          refine ⟨?_, ?_⟩
          · intro hno
            rw [((findEnds_iff rest false).1 false).mpr ⟨hne, by
              constructor
              · intro h; cases h
              · rintro (h | ⟨l, hl, w, ws, h1, h2⟩)
                · cases h
                · exact absurd (h2.trans hen.symm) (hno l hl w ws h1)⟩]
            rfl
          · rintro ⟨l, hl', w, ws, h1, h2⟩
            rw [((findEnds_iff rest false).1 true).mpr
              ⟨hne, fun _ => Or.inr ⟨l, hl', w, ws, h1, Eq.trans h2 hen⟩, fun _ => rfl⟩]
            refine ⟨?_, ?_⟩
            · rintro rfl
              rfl
            · rintro name ts rfl hd
              dsimp only
              rw [if_neg (by simp), if_neg]
              intro h
              exact hd (List.pairwise_map.mp h)

/-! ## Reading what was printed -/

theorem space_of (c : Char) (h : isSpace c = true) : Space c := (space_iff c).mpr h

theorem word_whole {w : Text} (h : ∀ c ∈ w, ¬ Space c) : Whole w := by
  intro c hc hb
  refine h c hc ?_
  rcases hb with hb | ⟨d, hd, hm⟩
  · simp at hb
  · obtain rfl : c = d := by simpa using hd
    simp only [List.mem_cons, List.not_mem_nil, or_false] at hm
    unfold Space
    rcases hm with e | e | e | e | e | e | e | e | e | e <;> rw [e] <;> decide

theorem blank_whole : Whole [' '] := by
  intro c hc
  rw [List.mem_singleton.mp hc, break_iff]
  decide

theorem whole_append {a b : Text} (ha : Whole a) (hb : Whole b) : Whole (a ++ b) := by
  intro c hc
  rcases List.mem_append.mp hc with h | h
  · exact ha c h
  · exact hb c h

theorem words_tokens (ts : List Text) (h : ∀ t ∈ ts, Word t) :
    Words (ts.flatMap fun t => ' ' :: t) ts ∧ Whole (ts.flatMap fun t => ' ' :: t) := by
  induction ts with
  | nil => exact ⟨.nil [] (by simp), by intro c hc; cases hc⟩
  | cons t ts ih =>
    obtain ⟨h1, h2⟩ := ih fun x hx => h x (List.mem_cons_of_mem _ hx)
    have ht := h t List.mem_cons_self
    constructor
    · have := Words.cons [' '] t (ts.flatMap fun t => ' ' :: t) ts (by
        intro c hc
        rw [List.mem_singleton.mp hc]
        exact space_of _ (by decide)) ht (by
        intro c hc
        cases ts with
        | nil => simp at hc
        | cons a as =>
          obtain rfl : c = ' ' := by simpa using hc.symm
          exact space_of _ (by decide)) h1
      simpa using this
    · rw [List.flatMap_cons]
      exact whole_append (whole_append (a := [' ']) blank_whole (word_whole ht.2)) h2

theorem lf_isBreak : Break ['\n'] := (break_iff _).mpr (by decide)

theorem lines_join (ls : List Text) (h : ∀ l ∈ ls, Whole l) (t : Text) (ms : List Text) (ht : Lines t ms) :
    Lines (ls.flatMap (fun l => l ++ ['\n']) ++ t) (ls ++ ms) := by
  induction ls with
  | nil => exact ht
  | cons l ls ih =>
    have := Lines.cons l ['\n'] _ _ (h l List.mem_cons_self) lf_isBreak (by simp)
      (ih fun x hx => h x (List.mem_cons_of_mem _ hx))
    simpa using this

/-- The text of an element: some lines, none of them blank. -/
def PartText (p : Text) (ls : List Text) : Prop :=
  ls ≠ [] ∧ (∀ l ∈ ls, Whole l ∧ ∃ c ∈ l, ¬ Space c) ∧ p = List.intercalate ['\n'] ls

theorem intercalate_lines (ls : List Text) (h : ls ≠ []) :
    List.intercalate ['\n'] ls ++ ['\n'] = ls.flatMap fun l => l ++ ['\n'] := by
  induction ls with
  | nil => exact absurd rfl h
  | cons l ls ih =>
    by_cases hn : ls = []
    · subst hn
      simp [List.intercalate]
    · obtain ⟨a, as, rfl⟩ := List.exists_cons_of_ne_nil hn
      have := ih hn
      rw [List.flatMap_cons, ← this]
      simp [List.intercalate, List.intersperse]

theorem has_words (l : Text) (h : ∃ c ∈ l, ¬ Space c) : ∃ w ws, Words l (w :: ws) := by
  cases hs : split l with
  | nil =>
    have hw := (words_iff l []).mpr hs
    cases hw with
    | nil g hg =>
      obtain ⟨c, hc, hn⟩ := h
      exact absurd (hg c hc) hn
  | cons w ws => exact ⟨w, ws, (words_iff _ _).mpr hs⟩

theorem not_suffix (pre name : Text) (h : '.' ∉ name) (a b c : Char) :
    ¬ ['.', a, b, c] <:+ pre ++ (".ENDS ".toList ++ name) := by
  rintro ⟨u, hu⟩
  have hlen := congrArg List.length hu
  simp only [List.length_append, List.length_cons, List.length_nil] at hlen
  have h6 : ".ENDS ".toList.length = 6 := by decide +kernel
  rw [h6] at hlen
  have h1 : (u ++ ['.', a, b, c])[u.length]? = some '.' := by simp
  rw [hu, List.getElem?_append_right (by omega)] at h1
  have hge : pre.length + 2 ≤ u.length := by omega
  obtain ⟨k, hk⟩ : ∃ k, u.length - pre.length = k + 2 := ⟨u.length - pre.length - 2, by omega⟩
  rw [hk, show ".ENDS ".toList ++ name = '.' :: 'E' :: ("NDS ".toList ++ name) by rfl] at h1
  simp only [List.getElem?_cons_succ] at h1
  rcases List.mem_append.mp (List.mem_of_getElem? h1) with h2 | h2
  · revert h2
    decide +kernel
  · exact h h2

/-- C130, the round trip: the definition that is printed for a sub-circuit can be included as a netlist.  The
element has the name and the terminals of the sub-circuit, in order, and its definition is that text again. -/
theorem C130_round_trip_partial (files : Text → Res Text) (name : Text) (terminals parts : List Text)
    (hname : Word name) (hterm : ∀ t ∈ terminals, Word t) (hparts : ∀ p ∈ parts, ∃ ls, PartText p ls)
    (hlow : name.map Char.toLower = name) (hupp : ∀ t ∈ terminals, t.map Char.toUpper = t) (hnd : terminals.Nodup)
    (hfile : '.' ∉ name) :
    netlistElement files (definitionText name terminals parts) =
      .ok ⟨name, terminals, definitionText name terminals parts⟩ := by
  have hfn : ¬ FileName (definitionText name terminals parts) := by
    have key : ∀ a b c : Char, a ≠ '.' → b ≠ '.' → c ≠ '.' →
        ¬ ['.', a, b, c] <:+ definitionText name terminals parts :=
      fun a b c _ _ _ => by
        unfold definitionText
        rw [List.append_assoc _ ".ENDS ".toList name]
        exact not_suffix _ name hfile a b c
    rintro (h | h | h)
    · exact key 't' 'x' 't' (by decide) (by decide) (by decide) h
    · exact key 'n' 'e' 't' (by decide) (by decide) (by decide) h
    · exact key 'c' 'i' 'r' (by decide) (by decide) (by decide) h
  have hup : terminals.map (fun x => x.map Char.toUpper) = terminals := by
    exact (List.map_congr_left (g := id) hupp).trans (List.map_id _)
  refine (C130_accepts files _ hfn _).mpr ⟨name, terminals, ?_, hlow.symm, hup.symm, rfl⟩
  have hsub : Word ".SUBCKT".toList := by
    refine ⟨by decide +kernel, ?_⟩
    intro c hc
    rw [space_iff]
    revert c
    decide +kernel
  have hend : Word ".ENDS".toList := by
    refine ⟨by decide +kernel, ?_⟩
    intro c hc
    rw [space_iff]
    revert c
    decide +kernel
  have t1 := words_tokens (name :: terminals) (by
    intro t ht
    rcases List.mem_cons.mp ht with rfl | ht
    · exact hname
    · exact hterm t ht)
  have t2 := words_tokens [name] (by simpa using hname)
  have f1 : Words (".SUBCKT".toList ++ (name :: terminals).flatMap fun t => ' ' :: t)
      (".SUBCKT".toList :: name :: terminals) := by
    have := Words.cons [] _ _ _ (by simp) hsub (by
      intro c hc
      obtain rfl : c = ' ' := by simpa using hc.symm
      exact space_of _ (by decide)) t1.1
    simpa using this
  have w1 : Whole (".SUBCKT".toList ++ (name :: terminals).flatMap fun t => ' ' :: t) :=
    whole_append (word_whole hsub.2) t1.2
  have f2 : Words (".ENDS".toList ++ [name].flatMap fun t => ' ' :: t) [".ENDS".toList, name] := by
    have := Words.cons [] _ _ _ (by simp) hend (by
      intro c hc
      obtain rfl : c = ' ' := by simpa using hc.symm
      exact space_of _ (by decide)) t2.1
    simpa using this
  have w2 : Whole (".ENDS".toList ++ [name].flatMap fun t => ' ' :: t) := whole_append (word_whole hend.2) t2.2
  obtain ⟨mid, hmid, hnb⟩ : ∃ mid : List Text, parts.flatMap (fun p => "    ".toList ++ p ++ ['\n']) =
      mid.flatMap (fun l => l ++ ['\n']) ∧ ∀ l ∈ mid, Whole l ∧ ∃ c ∈ l, ¬ Space c := by
    clear hfn
    induction parts with
    | nil => exact ⟨[], rfl, by simp⟩
    | cons p ps ih =>
      obtain ⟨mid, h1, h2⟩ := ih fun q hq => hparts q (List.mem_cons_of_mem _ hq)
      obtain ⟨ls, hne, hall, rfl⟩ := hparts p List.mem_cons_self
      obtain ⟨a, as, rfl⟩ := List.exists_cons_of_ne_nil hne
      refine ⟨(("    ".toList ++ a) :: as) ++ mid, ?_, ?_⟩
      · rw [List.flatMap_cons, h1, List.flatMap_append, List.append_assoc "    ".toList, intercalate_lines _ hne]
        simp
      · intro l hl
        rcases List.mem_append.mp hl with hl | hl
        · rcases List.mem_cons.mp hl with rfl | hl
          · obtain ⟨hw, c, hc, hn⟩ := hall a List.mem_cons_self
            refine ⟨whole_append ?_ hw, c, List.mem_append_right _ hc, hn⟩
            intro x hx
            rw [break_iff]
            revert x
            decide +kernel
          · exact hall l (List.mem_cons_of_mem _ hl)
        · exact h2 l hl
  refine ⟨_, mid ++ [".ENDS".toList ++ [name].flatMap fun t => ' ' :: t], _, ?_, f1, by unfold SameLetters; decide +kernel, ?_, ?_, ?_⟩
  · have := lines_join ((".SUBCKT".toList ++ (name :: terminals).flatMap fun t => ' ' :: t) :: mid) (by
      intro l hl
      rcases List.mem_cons.mp hl with rfl | hl
      · exact w1
      · exact (hnb l hl).1) _ _ (.last _ (by simp) w2)
    rw [show definitionText name terminals parts = _ from ?_]
    · exact this
    · unfold definitionText
      rw [hmid]
      have e1 : ".SUBCKT ".toList = ".SUBCKT".toList ++ [' '] := by decide +kernel
      have e2 : ".ENDS ".toList = ".ENDS".toList ++ [' '] := by decide +kernel
      rw [e1, e2]
      simp
  · intro l hl
    rcases List.mem_append.mp hl with hl | hl
    · exact has_words l (hnb l hl).2
    · rw [List.mem_singleton.mp hl]
      exact ⟨_, _, f2⟩
  · exact ⟨_, List.mem_append_right _ List.mem_cons_self, _, _, f2, by unfold SameLetters; decide +kernel⟩
  · refine List.Pairwise.imp_of_mem ?_ hnd
    intro a b ha hb h
    rw [hupp a ha, hupp b hb]
    exact h

/-- Results can be compared. -/
instance decResult : DecidableEq (Res Element)
  | .ok a, .ok b => if h : a = b then isTrue (by rw [h]) else isFalse (by simpa using h)
  | .error a, .error b => if h : a = b then isTrue (by rw [h]) else isFalse (by simpa using h)
  | .ok _, .error _ => isFalse (by simp)
  | .error _, .ok _ => isFalse (by simp)

/-- A netlist with a blank line, here before the end, is refused. -/
theorem C130_blank_false (files : Text → Res Text) :
    netlistElement files ".subckt amp IN OUT\nR1 IN OUT 1k\n\n.ends amp".toList = .error .indexError := by
  unfold netlistElement
  rw [if_neg (by decide +kernel)]
  decide +kernel

/-- A sub-circuit whose name looks like that of a file cannot be read back: the netlist is taken for a file name. -/
theorem C130_file_false (files : Text → Res Text) (parts : List Text) :
    netlistElement files (definitionText "amp.cir".toList ["IN".toList] parts) =
      match files (definitionText "amp.cir".toList ["IN".toList] parts) with
      | .error e => .error e
      | .ok t => parse t := by
  unfold netlistElement
  refine if_pos (Or.inr (Or.inr ?_))
  unfold definitionText
  exact ⟨_, by
    rw [show "amp.cir".toList = "amp".toList ++ ".cir".toList by decide +kernel, ← List.append_assoc _ _ ".cir".toList]⟩

/-- The hypotheses of the round trip are met by a resistor between two terminals, with a comment. -/
example (files : Text → Res Text) : netlistElement files
      ".SUBCKT amp IN OUT\n    * load\nR1 IN OUT r=2.0\n.ENDS amp".toList =
    .ok ⟨"amp".toList, ["IN".toList, "OUT".toList], ".SUBCKT amp IN OUT\n    * load\nR1 IN OUT r=2.0\n.ENDS amp".toList⟩ := by
  have hw : ∀ w ∈ ["amp".toList, "IN".toList, "OUT".toList], Word w := by
    intro w hw
    refine ⟨?_, ?_⟩
    · revert w; decide +kernel
    · intro c hc
      rw [space_iff]
      revert c
      revert w
      decide +kernel
  have := C130_round_trip_partial files "amp".toList ["IN".toList, "OUT".toList] ["* load\nR1 IN OUT r=2.0".toList]
    (hw _ (by simp)) (by
      intro t ht
      exact hw t (List.mem_cons_of_mem _ ht)) (by
      intro p hp
      rw [List.mem_singleton.mp hp]
      refine ⟨["* load".toList, "R1 IN OUT r=2.0".toList], by simp, ?_, by decide +kernel⟩
      intro l hl
      constructor
      · intro c hc
        rw [break_iff]
        revert c
        revert l
        decide +kernel
      · refine ⟨l.headD ' ', ?_, ?_⟩
        · revert l; decide +kernel
        · rw [space_iff]
          revert l; decide +kernel) (by decide +kernel) (by decide +kernel) (by decide +kernel) (by decide +kernel)
  exact this

/-- An accepted and a refused netlist: the cases of `C130_accepts` and `C130_errors`. -/
example (files : Text → Res Text) :
    netlistElement files ".Subckt AMP in out\n.Ends".toList =
      .ok ⟨"amp".toList, ["IN".toList, "OUT".toList], ".Subckt AMP in out\n.Ends".toList⟩ ∧
    netlistElement files "* amp\n.Subckt AMP in out\n.Ends".toList = .error .valueError := by
  constructor <;> unfold netlistElement <;> rw [if_neg (by decide +kernel)] <;> decide +kernel

end Cbadc.NetlistText
