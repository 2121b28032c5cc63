import Mathlib.Data.List.Basic
import Mathlib.Data.List.GetD
import Mathlib.Tactic.Ring
import Verif.Spec.Cards

/-! # Words and lines of printed components -/

namespace Cbadc.Cards

open Cbadc.NetlistText (Text lower upper)

/-! ## Words -/

/-- a text after which a word ends -/
def Stop : Text → Prop
  | [] => True
  | c :: _ => c = ';' ∨ isBlank c = true ∨ isMark c = true

theorem wordsFrom_append {w : Text} (h : ∀ c ∈ w, c ≠ ';' ∧ c ≠ '\n' ∧ isBlank c = false ∧ isMark c = false) :
    ∀ cur r, wordsFrom cur (w ++ r) = wordsFrom (cur ++ w) r := by
  induction w with
  | nil => intro cur r; simp
  | cons c cs ih =>
    intro cur r
    obtain ⟨h1, _, h2, h3⟩ := h c (by simp)
    have := ih (fun d hd => h d (by simp [hd])) (cur ++ [c]) r
    simp only [List.cons_append, wordsFrom, h1, h2, h3, if_false, Bool.false_eq_true]
    rw [this]; simp

theorem wordsFrom_stop {r : Text} (hr : Stop r) {cur : Text} (hc : cur ≠ []) :
    wordsFrom cur r = cur :: wordsOf r := by
  cases r with
  | nil => simp [wordsFrom, flush, hc, wordsOf]
  | cons c cs =>
    unfold wordsOf wordsFrom
    by_cases h1 : c = ';'
    · simp [h1, flush, hc]
    · by_cases h2 : isBlank c = true
      · simp [h1, h2, flush, hc]
      · by_cases h3 : isMark c = true
        · simp [h1, h2, h3, flush, hc]
        · rcases hr with h | h | h
          · exact absurd h h1
          · exact absurd h h2
          · exact absurd h h3

theorem wordsOf_blank {c : Char} (h : c ≠ ';') (hb : isBlank c = true) (r : Text) : wordsOf (c :: r) = wordsOf r := by
  simp [wordsOf, wordsFrom, h, hb, flush]

theorem wordsOf_space (r : Text) : wordsOf (' ' :: r) = wordsOf r := wordsOf_blank (by decide) (by decide) r

theorem wordsOf_mark {c : Char} (h : c ≠ ';') (hb : isBlank c = false) (hm : isMark c = true) (r : Text) :
    wordsOf (c :: r) = [c] :: wordsOf r := by
  simp [wordsOf, wordsFrom, h, hb, hm, flush]

/-- `w` is read as the words `ts`, whatever follows, and is on one line -/
def Chunk (w : Text) (ts : List Text) : Prop := '\n' ∉ w ∧ ∀ r, Stop r → wordsOf (w ++ r) = ts ++ wordsOf r

theorem Word.line {w : Text} (h : Word w) : '\n' ∉ w := fun hn => (h.2 _ hn).2.1 rfl

theorem Chunk.word {w : Text} (h : Word w) : Chunk w [w] := by
  refine ⟨h.line, fun r hr => ?_⟩
  rw [wordsOf, wordsFrom_append h.2]
  simpa using wordsFrom_stop hr h.1

theorem Chunk.nil : Chunk [] [] := ⟨by simp, fun r _ => by simp⟩

theorem Chunk.eq {w : Text} {ts : List Text} (h : Chunk w ts) : wordsOf w = ts := by
  have := h.2 [] trivial
  simpa [wordsOf, wordsFrom, flush] using this

theorem stop_space (r : Text) : Stop (' ' :: r) := Or.inr (Or.inl (by decide))

theorem Chunk.append {a b : Text} {as bs : List Text} (ha : Chunk a as) (hb : Chunk b bs) (hs : ∀ r, Stop r → Stop (b ++ r)) :
    Chunk (a ++ b) (as ++ bs) := by
  refine ⟨by simp [ha.1, hb.1], fun r hr => ?_⟩
  rw [List.append_assoc, ha.2 _ (hs r hr), hb.2 r hr, List.append_assoc]

theorem Chunk.words {ws : List Text} {tss : List (List Text)} (h : List.Forall₂ Chunk ws tss) :
    Chunk (words ws) tss.flatten := by
  induction h with
  | nil => simpa [Cards.words] using Chunk.nil
  | @cons w ts ws tss hw hws ih =>
    cases hws with
    | nil => simpa [Cards.words] using hw
    | cons h1 h2 =>
      refine ⟨?_, fun r hr => ?_⟩
      · have := ih.1
        simp [Cards.words, hw.1] at this ⊢
        exact this
      · have := ih.2 r hr
        simp only [Cards.words, List.append_assoc, List.cons_append, List.flatten_cons] at this ⊢
        rw [hw.2 _ (stop_space _), wordsOf_space, this]

theorem Chunk.all {ws : List Text} (h : ∀ w ∈ ws, Word w) : List.Forall₂ Chunk ws (ws.map fun w => [w]) := by
  induction ws with
  | nil => exact .nil
  | cons w ws ih => exact .cons (Chunk.word (h w (by simp))) (ih fun v hv => h v (by simp [hv]))

theorem flatten_single {α : Type} (l : List α) : (l.map fun w => [w]).flatten = l := by
  induction l with
  | nil => rfl
  | cons a l ih => simp [ih]

theorem Chunk.mark {c : Char} (h : c ≠ ';') (hn : '\n' ≠ c) (hb : isBlank c = false) (hm : isMark c = true) {a : Text}
    {as : List Text} (ha : Chunk a as) : Chunk (c :: a) ([c] :: as) := by
  refine ⟨by simp [hn, ha.1], fun r hr => ?_⟩
  rw [List.cons_append, wordsOf_mark h hb hm, ha.2 r hr, List.cons_append]

theorem Chunk.close {c : Char} (h : c ≠ ';') (hn : '\n' ≠ c) (hb : isBlank c = false) (hm : isMark c = true) :
    Chunk [c] [[c]] :=
  Chunk.mark h hn hb hm Chunk.nil

theorem stop_mark {c : Char} (hm : isMark c = true) (a : Text) : Stop (c :: a) := Or.inr (Or.inr hm)

theorem Chunk.keyValue {k v : Text} {ts : List Text} (hk : Word k) (hv : Chunk v ts) :
    Chunk (keyValue (k, v)) (k :: ['='] :: ts) := by
  have := (Chunk.word hk).append (Chunk.mark (c := '=') (by decide) (by decide) (by decide) (by decide) hv)
    fun r _ => stop_mark (by decide) _
  simpa [Cards.keyValue] using this

theorem Chunk.square {a : Text} {as : List Text} (h : Chunk a as) : Chunk ('[' :: a ++ [']']) (['['] :: as ++ [[']']]) := by
  have := Chunk.mark (c := '[') (by decide) (by decide) (by decide) (by decide)
    (h.append (Chunk.close (c := ']') (by decide) (by decide) (by decide) (by decide))
      fun r _ => stop_mark (by decide) _)
  simpa using this

theorem Chunk.bracket {ws : List Text} {tss : List (List Text)} (h : List.Forall₂ Chunk ws tss) :
    Chunk (bracket ws) (['['] :: tss.flatten ++ [[']']]) := Chunk.square (Chunk.words h)

theorem Chunk.paren {k : Text} (hk : Word k) {a : Text} {as : List Text} (ha : Chunk a as) :
    Chunk (k ++ '(' :: a ++ [')']) (k :: ['('] :: as ++ [[')']]) := by
  have := (Chunk.word hk).append (Chunk.mark (c := '(') (by decide) (by decide) (by decide) (by decide)
    (ha.append (Chunk.close (c := ')') (by decide) (by decide) (by decide) (by decide)) fun r _ => stop_mark (by decide) _))
    fun r _ => stop_mark (by decide) _
  simpa using this

theorem Chunk.vd {a b : Text} (ha : Word a) (hb : Word b) :
    Chunk (vd a b) ["%vd".toList, ['('], a, [','], b, [')']] := by
  have hab : Chunk (a ++ ',' :: b) (a :: [','] :: [b]) := by
    simpa using (Chunk.word ha).append (Chunk.mark (c := ',') (by decide) (by decide) (by decide) (by decide)
      (Chunk.word hb)) fun r _ => stop_mark (by decide) _
  have := Chunk.paren (k := "%vd".toList) (by decide) hab
  simpa [Cards.vd] using this

theorem Chunk.commaList {ws : List Text} (h : ∀ w ∈ ws, Word w) :
    ∃ ts, Chunk (commaList ws) ts ∧ (∀ t ∈ ts, t ≠ [']']) ∧ ts.filter (· ≠ [',']) = ws := by
  have hne : ∀ w : Text, Word w → ∀ c, isMark c = true → w ≠ [c] := by
    rintro w hw c hc rfl
    have := (hw.2 c (by simp)).2.2.2
    rw [hc] at this; cases this
  induction ws with
  | nil => exact ⟨[], by simpa [Cards.commaList] using Chunk.nil, by simp, rfl⟩
  | cons w ws ih =>
    obtain ⟨ts, h1, h3, h2⟩ := ih fun v hv => h v (by simp [hv])
    have hw := h w (by simp)
    cases ws with
    | nil =>
      refine ⟨[w], by simpa [Cards.commaList] using Chunk.word hw, ?_, ?_⟩
      · simpa using hne w hw _ (by decide)
      · simp [hne w hw ',' (by decide)]
    | cons v vs =>
      refine ⟨w :: [','] :: ts, ⟨?_, ?_⟩, ?_, ?_⟩
      · have := h1.1
        simp [Cards.commaList, hw.line] at this ⊢
        exact this
      · intro r hr
        have := h1.2 r hr
        simp only [Cards.commaList, List.append_assoc, List.cons_append]
        rw [(Chunk.word hw).2 _ (stop_mark (by decide) _), wordsOf_mark (by decide) (by decide) (by decide), wordsOf_space,
          this]
        simp
      · intro t ht
        rcases List.mem_cons.1 ht with rfl | ht
        · exact hne _ hw _ (by decide)
        · rcases List.mem_cons.1 ht with rfl | ht
          · decide
          · exact h3 t ht
      · have : ([','] :: ts).filter (· ≠ [',']) = ts.filter (· ≠ [',']) := by simp
        rw [List.filter_cons_of_pos (by simpa using hne w hw _ (by decide)), this, h2]

/-! ## Words in lower case -/

theorem toLower_cases (c : Char) : c.toLower = c ∨ ('a' ≤ c.toLower ∧ c.toLower ≤ 'z') := by
  unfold Char.toLower
  split
  · rename_i h
    right
    have h1 : 65 ≤ c.toNat := by simpa using UInt32.le_iff_toNat_le.1 h.1
    have h2 : c.toNat ≤ 90 := by simpa using UInt32.le_iff_toNat_le.1 h.2
    simp only [Char.le_def, UInt32.le_iff_toNat_le]
    simp
    omega
  · left; rfl

theorem Word.char_lower {c : Char} (h : c ≠ ';' ∧ c ≠ '\n' ∧ isBlank c = false ∧ isMark c = false) :
    c.toLower ≠ ';' ∧ c.toLower ≠ '\n' ∧ isBlank c.toLower = false ∧ isMark c.toLower = false := by
  rcases toLower_cases c with e | ⟨h1, h2⟩
  · rw [e]; exact h
  · generalize c.toLower = d at *
    refine ⟨?_, ?_, ?_, ?_⟩
    · rintro rfl; exact absurd h1 (by decide)
    · rintro rfl; exact absurd h1 (by decide)
    · by_contra hb
      have hb : isBlank d = true := by simpa using hb
      simp only [isBlank, List.mem_cons, List.not_mem_nil, or_false, decide_eq_true_eq] at hb
      rcases hb with rfl | rfl | rfl <;> exact absurd h1 (by decide)
    · by_contra hb
      have hb : isMark d = true := by simpa using hb
      simp only [isMark, List.mem_cons, List.not_mem_nil, or_false, decide_eq_true_eq] at hb
      rcases hb with rfl | rfl | rfl | rfl | rfl | rfl <;> exact absurd h1 (by decide)

theorem Word.lower {w : Text} (h : Word w) : Word (lower w) := by
  refine ⟨by simpa [NetlistText.lower] using h.1, fun c hc => ?_⟩
  obtain ⟨d, hd, rfl⟩ := List.mem_map.1 hc
  exact Word.char_lower (h.2 d hd)

theorem Word.name {letter : Char} (hl : letter ≠ ';' ∧ letter ≠ '\n' ∧ isBlank letter = false ∧ isMark letter = false)
    {w : Text} (h : Word w) : Word (nameOf letter w) := by
  refine ⟨by simp [nameOf], fun c hc => ?_⟩
  rcases List.mem_cons.1 hc with rfl | hc
  · exact hl
  · obtain ⟨d, hd, rfl⟩ := List.mem_map.1 hc
    refine Word.char_lower (h.2 d ?_)
    by_cases hw : w.head? = some letter
    · rw [if_pos hw] at hd; exact List.mem_of_mem_tail hd
    · rw [if_neg hw] at hd; exact hd

theorem Word.ne_mark {w : Text} (h : Word w) {c : Char} (hc : isMark c = true) : w ≠ [c] := by
  rintro rfl
  have := (h.2 c (by simp)).2.2.2
  rw [hc] at this; cases this

theorem instanceName_eq {letter : Char} {e : Exc} {w : Text} (h : w ≠ []) :
    instanceName letter e w = .ok (nameOf letter w) := by
  cases w with
  | nil => exact absurd rfl h
  | cons c cs =>
    by_cases hc : c = letter
    · simp [instanceName, nameOf, lowerTail, hc]
    · simp [instanceName, nameOf, lowerTail, hc]

/-! ## Lines -/

theorem linesFrom_append {a : Text} (h : '\n' ∉ a) : ∀ cur r, linesFrom cur (a ++ r) = linesFrom (cur ++ a) r := by
  induction a with
  | nil => intro cur r; simp
  | cons c cs ih =>
    intro cur r
    have hc : c ≠ '\n' := fun e => h (by simp [e])
    have := ih (fun hh => h (by simp [hh])) (cur ++ [c]) r
    simp only [List.cons_append, linesFrom, hc, if_false]
    rw [this]; simp

theorem linesFrom_break (a : Text) : ∀ cur b, linesFrom cur (a ++ '\n' :: b) = linesFrom cur a ++ linesOf b := by
  induction a with
  | nil => intro cur b; simp [linesFrom, linesOf]
  | cons c cs ih =>
    intro cur b
    by_cases hc : c = '\n'
    · simp only [List.cons_append, linesFrom, hc, if_true, ih]
    · simp only [List.cons_append, linesFrom, hc, if_false, ih]

theorem linesOf_break (a b : Text) : linesOf (a ++ '\n' :: b) = linesOf a ++ linesOf b := linesFrom_break a [] b

theorem linesOf_line {a : Text} (h : '\n' ∉ a) : linesOf a = [a] := by
  have := linesFrom_append h [] []
  simpa [linesOf, linesFrom] using this

theorem linesFrom_head (a : Text) : ∀ cur, ∃ l ls, linesOf a = l :: ls ∧ linesFrom cur a = (cur ++ l) :: ls := by
  suffices ∀ cur, ∃ l ls, ∀ pre, linesFrom (pre ++ cur) a = (pre ++ cur ++ l) :: ls by
    intro cur
    obtain ⟨l, ls, h⟩ := this []
    exact ⟨l, ls, by simpa [linesOf] using h [], by simpa using h cur⟩
  induction a with
  | nil => intro cur; exact ⟨[], [], fun pre => by simp [linesFrom]⟩
  | cons c cs ih =>
    intro cur
    by_cases hc : c = '\n'
    · exact ⟨[], linesOf cs, fun pre => by simp [linesFrom, hc, linesOf]⟩
    · obtain ⟨l, ls, h⟩ := ih (cur ++ [c])
      exact ⟨c :: l, ls, fun pre => by simpa [linesFrom, hc] using h pre⟩

theorem readLines_append (a b : List Text) :
    readLines (a ++ b) = (readLines a).bind fun x => (readLines b).map (x ++ ·) := by
  induction a with
  | nil => simp [readLines]
  | cons l ls ih =>
    simp only [List.cons_append, readLines, ih]
    cases readLine l <;> cases readLines ls <;> cases readLines b <;> simp

theorem readText_break {a b : Text} {x y : List Stmt} (ha : readText a = some x) (hb : readText b = some y) :
    readText (a ++ '\n' :: b) = some (x ++ y) := by
  unfold readText at *
  rw [linesOf_break, readLines_append, ha, hb]; rfl

theorem readText_indent (a : Text) : readText ("    ".toList ++ a) = readText a := by
  obtain ⟨l, ls, h1, h2⟩ := linesFrom_head a "    ".toList
  have : linesOf ("    ".toList ++ a) = ("    ".toList ++ l) :: ls := by
    rw [← h2, linesOf, linesFrom_append (by decide)]; rfl
  unfold readText
  rw [this, h1, readLines, readLines]
  have : readLine ("    ".toList ++ l) = readLine l := by
    unfold readLine
    rw [show "    ".toList ++ l = ' ' :: ' ' :: ' ' :: ' ' :: l from rfl]
    simp only [wordsOf_space]
  rw [this]

theorem readText_line {a : Text} (h : '\n' ∉ a) {x : List Stmt} (hx : readLine a = some x) : readText a = some x := by
  unfold readText
  rw [linesOf_line h]
  simp [readLines, hx]

theorem readLine_comment (t : Text) : readLine ("* ".toList ++ t) = some [] := by
  have : wordsOf ("* ".toList ++ t) = ['*'] :: wordsOf t := by
    rw [show "* ".toList ++ t = ['*'] ++ ' ' :: t from rfl, (Chunk.word (w := ['*']) (by decide)).2 _ (stop_space _),
      wordsOf_space]
    rfl
  unfold readLine
  rw [this]
  simp

theorem readText_comments {cs : List Text} (h : ∀ c ∈ cs, '\n' ∉ c) {a : Text} {x : List Stmt}
    (ha : readText a = some x) : readText (commentText cs ++ a) = some x := by
  induction cs with
  | nil => simpa [commentText] using ha
  | cons c cs ih =>
    have h1 := ih fun d hd => h d (by simp [hd])
    have h2 : readText ("* ".toList ++ c) = some [] := by
      refine readText_line ?_ (readLine_comment c)
      intro hm
      rcases List.mem_append.1 hm with hm | hm
      · exact absurd hm (by decide)
      · exact h c (by simp) hm
    have := readText_break h2 h1
    simpa [commentText] using this

/-! ## Ports -/

theorem readPorts_net {t : Text} (h : NetName t) {r : List Text} (hr : r ≠ []) :
    readPorts none (t :: r) = (readPorts none r).map fun p => (.one (.net t) :: p.1, p.2) := by
  cases r with
  | nil => exact absurd rfl hr
  | cons u r =>
    have := h.1.ne_mark (c := '[') (by decide)
    rw [readPorts.eq_def]
    simp only [this, h.2, if_false]

theorem readPorts_nets {l : List Text} (h : ∀ t ∈ l, NetName t) (m : Text) :
    readPorts none (l ++ [m]) = some (l.map fun t => .one (.net t), m) := by
  induction l with
  | nil => simp [readPorts]
  | cons t l ih =>
    rw [List.cons_append, readPorts_net (h t (by simp)) (by simp), ih fun s hs => h s (by simp [hs])]
    rfl

/-- the words of a signal -/
def sigWords : Sig → List Text
  | .net a => [a]
  | .diff a b => ["%vd".toList, ['('], a, [','], b, [')']]

/-- a signal between nets -/
def SigOk : Sig → Prop
  | .net a => NetName a
  | .diff _ _ => True

theorem readPorts_items {l : List Sig} (h : ∀ s ∈ l, SigOk s) {r : List Text} (hr : r ≠ []) : ∀ acc,
    readPorts (some acc) ((l.map sigWords).flatten ++ [']'] :: r) =
      (readPorts none r).map fun p => (.vec (acc ++ l) :: p.1, p.2) := by
  induction l with
  | nil =>
    intro acc
    cases r with
    | nil => exact absurd rfl hr
    | cons u r =>
      rw [List.map_nil, List.flatten_nil, List.nil_append, readPorts.eq_def]
      simp only [if_true, List.append_nil]
  | cons s l ih =>
    intro acc
    have ih := ih (fun q hq => h q (by simp [hq])) (acc ++ [s])
    cases s with
    | net a =>
      have ha : NetName a := h (.net a) (by simp)
      have h1 := ha.1.ne_mark (c := ']') (by decide)
      simp only [List.map_cons, sigWords, List.flatten_cons, List.cons_append, List.nil_append]
      rw [show acc ++ Sig.net a :: l = acc ++ [Sig.net a] ++ l by simp, ← ih]
      cases hq : (l.map sigWords).flatten ++ [']'] :: r with
      | nil => simp at hq
      | cons u q =>
        rw [readPorts.eq_def]
        simp only [h1, ha.2, if_false]
    | diff a b =>
      simp only [List.map_cons, sigWords, List.flatten_cons, List.cons_append, List.nil_append]
      rw [show acc ++ Sig.diff a b :: l = acc ++ [Sig.diff a b] ++ l by simp, ← ih]
      rw [readPorts.eq_def]
      simp only [show "%vd".toList ≠ [']'] by decide, if_false, if_true]

theorem readPorts_vec {l : List Sig} (h : ∀ s ∈ l, SigOk s) {r : List Text} (hr : r ≠ []) :
    readPorts none (['['] :: (l.map sigWords).flatten ++ [']'] :: r) =
      (readPorts none r).map fun p => (.vec l :: p.1, p.2) := by
  have := readPorts_items h hr []
  rw [List.nil_append] at this
  rw [← this]
  cases hq : (l.map sigWords).flatten ++ [']'] :: r with
  | nil => simp at hq
  | cons u q =>
    rw [List.cons_append, hq, readPorts.eq_def]
    simp only [if_true]

/-! ## Element lines -/

theorem readLine_element {l n : Text} {r : List Text} (h : Chunk l (n :: r)) {c : Char} {cs : Text} (hn : n = c :: cs)
    (h1 : c ≠ '*') (h2 : c ≠ '.') {s : Stmt} (hs : readElement n c.toUpper r = some s) : readText l = some [s] := by
  refine readText_line h.1 ?_
  unfold readLine
  rw [h.eq, hn]
  simp only [h1, h2, if_false]
  rw [← hn, hs]; rfl

/-! ## Instances and models -/

theorem readInst_nets {l : List Text} (h : ∀ t ∈ l, Word t) {m : Text} (hm : Word m) : ∀ acc,
    readInst acc (l ++ [m]) = some (acc ++ l, m, []) := by
  induction l with
  | nil => intro acc; simp [readInst]
  | cons t l ih =>
    intro acc
    have ih := ih (fun s hs => h s (by simp [hs])) (acc ++ [t])
    have hall : ∀ s ∈ l ++ [m], s ≠ ['='] := by
      intro s hs
      rcases List.mem_append.1 hs with hs | hs
      · exact (h s (by simp [hs])).ne_mark (by decide)
      · rw [List.mem_singleton.1 hs]; exact hm.ne_mark (by decide)
    cases hq : l ++ [m] with
    | nil => simp at hq
    | cons k q =>
      rw [hq] at ih hall
      rw [List.cons_append, hq, readInst, if_neg, ih]
      · simp
      · intro hk
        cases q with
        | nil => cases hk
        | cons z q =>
          have : z = ['='] := by simpa using hk
          exact hall z (by simp) this

theorem readModel_vec (k : Text) {ts : List Text} (h : ∀ t ∈ ts, t ≠ [']']) (r : List Text) : ∀ l,
    readModel (some (k, l)) (ts ++ [']'] :: r) =
      (readModel none r).map ((k, l ++ ts.filter (· ≠ [','])) :: ·) := by
  induction ts with
  | nil => intro l; simp [readModel]
  | cons t ts ih =>
    intro l
    have ih := ih fun s hs => h s (by simp [hs])
    have ht := h t (by simp)
    by_cases hc : t = [',']
    · subst hc
      rw [List.cons_append, readModel]
      simp [ih]
    · rw [List.cons_append, readModel]
      simp [ht, hc, ih]

end Cbadc.Cards
