import Verif.Spec.FrontendText
import Verif.Props.Cards
import Verif.Props.OpAmp

/-! # Reading the printed definition of a frontend -/

namespace Cbadc.FrontendText

open Cbadc.Circuit Cbadc.Circuit.Spec Cbadc.Cards
open Cbadc.NetlistText (Text lower definitionText)

/-! ## Names -/

theorem up_low (c : Char) (h : ¬ ('a' ≤ c ∧ c ≤ 'z')) : c.toLower.toUpper = c := by
  unfold Char.toLower
  split
  · next h1 =>
    have a1 : 65 ≤ c.toNat := by simpa using UInt32.le_iff_toNat_le.1 h1.1
    have a2 : c.toNat ≤ 90 := by simpa using UInt32.le_iff_toNat_le.1 h1.2
    unfold Char.toUpper
    rw [dif_pos (by
      simp only [UInt32.le_iff_toNat_le, UInt32.toNat_add]
      simp
      omega)]
    apply Char.ext
    apply UInt32.toNat_inj.1
    simp [UInt32.toNat_add]
    omega
  · next h1 =>
    unfold Char.toUpper
    rw [dif_neg]
    intro h2
    exact h ⟨h2.1, h2.2⟩

/-- the characters of the names of nets -/
def okU (c : Char) : Bool := c.isUpper || c.isDigit || c == '_'

/-- the characters of the names of elements after the first -/
def okL (c : Char) : Bool := c.isLower || c.isDigit || c == '_'

theorem okU_char {c : Char} (h : okU c = true) :
    (c ≠ ';' ∧ c ≠ '\n' ∧ isBlank c = false ∧ isMark c = false) ∧ c ≠ '%' ∧ c.toLower.toUpper = c := by
  refine ⟨⟨?_, ?_, ?_, ?_⟩, ?_, up_low c ?_⟩
  · rintro rfl; exact absurd h (by decide)
  · rintro rfl; exact absurd h (by decide)
  · by_contra hb
    have hb : isBlank c = true := by simpa using hb
    simp only [isBlank, List.mem_cons, List.not_mem_nil, or_false, decide_eq_true_eq] at hb
    rcases hb with rfl | rfl | rfl <;> exact absurd h (by decide)
  · by_contra hb
    have hb : isMark c = true := by simpa using hb
    simp only [isMark, List.mem_cons, List.not_mem_nil, or_false, decide_eq_true_eq] at hb
    rcases hb with rfl | rfl | rfl | rfl | rfl | rfl <;> exact absurd h (by decide)
  · rintro rfl; exact absurd h (by decide)
  · rintro ⟨h1, h2⟩
    simp only [okU, Char.isUpper, Char.isDigit, Bool.or_eq_true, Bool.and_eq_true, decide_eq_true_eq, beq_iff_eq] at h
    have a1 : 97 ≤ c.toNat := by simpa using UInt32.le_iff_toNat_le.1 h1
    rcases h with (⟨_, h⟩ | ⟨_, h⟩) | rfl
    · have : c.toNat ≤ 90 := by simpa using UInt32.le_iff_toNat_le.1 h
      omega
    · have : c.toNat ≤ 57 := by simpa using UInt32.le_iff_toNat_le.1 h
      omega
    · exact absurd a1 (by decide)

theorem okL_char {c : Char} (h : okL c = true) :
    (c ≠ ';' ∧ c ≠ '\n' ∧ isBlank c = false ∧ isMark c = false) ∧ c.toLower = c := by
  refine ⟨⟨?_, ?_, ?_, ?_⟩, ?_⟩
  · rintro rfl; exact absurd h (by decide)
  · rintro rfl; exact absurd h (by decide)
  · by_contra hb
    have hb : isBlank c = true := by simpa using hb
    simp only [isBlank, List.mem_cons, List.not_mem_nil, or_false, decide_eq_true_eq] at hb
    rcases hb with rfl | rfl | rfl <;> exact absurd h (by decide)
  · by_contra hb
    have hb : isMark c = true := by simpa using hb
    simp only [isMark, List.mem_cons, List.not_mem_nil, or_false, decide_eq_true_eq] at hb
    rcases hb with rfl | rfl | rfl | rfl | rfl | rfl <;> exact absurd h (by decide)
  · unfold Char.toLower
    rw [dif_neg]
    rintro ⟨h1, h2⟩
    simp only [okL, Char.isLower, Char.isDigit, Bool.or_eq_true, Bool.and_eq_true, decide_eq_true_eq, beq_iff_eq] at h
    have a1 : 65 ≤ c.toNat := by simpa using UInt32.le_iff_toNat_le.1 h1
    have a2 : c.toNat ≤ 90 := by simpa using UInt32.le_iff_toNat_le.1 h2
    rcases h with (⟨h, _⟩ | ⟨_, h⟩) | rfl
    · have : 97 ≤ c.toNat := by simpa using UInt32.le_iff_toNat_le.1 h
      omega
    · have : c.toNat ≤ 57 := by simpa using UInt32.le_iff_toNat_le.1 h
      omega
    · exact absurd a2 (by decide)

/-- the name of a net of a frontend -/
def NodeOk (s : String) : Prop := s ≠ "" ∧ ∀ c ∈ s.toList, okU c = true

/-- the name of an element of a frontend -/
def InstOk (letter : Char) (s : String) : Prop := ∃ r, s.toList = letter :: r ∧ ∀ c ∈ r, okL c = true

/-- capital letters -/
def raise (s : String) : String := String.ofList (s.toList.map Char.toUpper)

/-- a capital letter in front -/
def capital (s : String) : String :=
  match s.toList with
  | [] => ""
  | c :: r => String.ofList (c.toUpper :: r)

theorem NodeOk.raise {s : String} (h : ∀ c ∈ s.toList, okU c = true) : raise (plain s.toList) = s := by
  unfold FrontendText.raise plain NetlistText.lower
  rw [String.toList_ofList, List.map_map]
  apply String.toList_injective
  rw [String.toList_ofList]
  conv_rhs => rw [← List.map_id s.toList]
  exact List.map_congr_left fun c hc => (okU_char (h c hc)).2.2

theorem InstOk.capital {l : Char} (hl : l.toLower.toUpper = l) {s : String} (h : InstOk l s) :
    capital (plain s.toList) = s := by
  obtain ⟨r, hr, hc⟩ := h
  have e : (plain s.toList).toList = l.toLower :: r := by
    unfold plain NetlistText.lower
    rw [String.toList_ofList, hr, List.map_cons]
    congr 1
    conv_rhs => rw [← List.map_id r]
    exact List.map_congr_left fun c hcr => (okL_char (hc c hcr)).2
  unfold FrontendText.capital
  rw [e]
  dsimp only
  rw [hl, ← hr, String.ofList_toList]

theorem NodeOk.net {s : String} (h : NodeOk s) : NetName s.toList := by
  have hne : s.toList ≠ [] := fun e => h.1 (String.toList_injective e)
  refine ⟨⟨hne, fun c hc => (okU_char (h.2 c hc)).1⟩, fun e => ?_⟩
  exact (okU_char (h.2 '%' (by rw [e]; decide))).2.1 rfl

theorem InstOk.word {l : Char} (hl : l ≠ ';' ∧ l ≠ '\n' ∧ isBlank l = false ∧ isMark l = false) {s : String}
    (h : InstOk l s) : Word s.toList := by
  obtain ⟨r, hr, hc⟩ := h
  rw [hr]
  refine ⟨by simp, fun c hcm => ?_⟩
  rcases List.mem_cons.1 hcm with rfl | hcm
  · exact hl
  · exact (okL_char (hc c hcm)).1

theorem InstOk.nameOf {l : Char} {s : String} (h : InstOk l s) : nameOf l s.toList = s.toList := by
  obtain ⟨r, hr, hc⟩ := h
  unfold Cards.nameOf NetlistText.lower
  rw [hr]
  simp only [List.head?_cons, if_true, List.tail_cons]
  congr 1
  conv_rhs => rw [← List.map_id r]
  exact List.map_congr_left fun c hcr => (okL_char (hc c hcr)).2

theorem digits_ok (n : ℕ) : ∀ c ∈ Nat.toDigits 10 n, okU c = true ∧ okL c = true := by
  intro c hc
  have := Nat.isDigit_of_mem_toDigits (by norm_num) (by norm_num) hc
  simp [okU, okL, this]

theorem fmt_chars {P : Char → Prop} {a b : String} {n : ℕ} (ha : ∀ c ∈ a.toList, P c) (hb : ∀ c ∈ b.toList, P c)
    (hd : ∀ c ∈ Nat.toDigits 10 n, P c) : ∀ c ∈ (fmt a n b).toList, P c := by
  intro c hc
  unfold fmt at hc
  rw [String.toList_append, String.toList_append, List.mem_append, List.mem_append] at hc
  rcases hc with hc | hc | hc
  · exact ha c hc
  · exact hd c (by simpa using hc)
  · exact hb c hc

theorem node_fmt (a : String) (n : ℕ) (b : String) (h : a ≠ "") (ha : ∀ c ∈ a.toList, okU c = true)
    (hb : ∀ c ∈ b.toList, okU c = true) : NodeOk (fmt a n b) :=
  ⟨fmt_ne_empty a n b h, fmt_chars ha hb fun c hc => (digits_ok n c hc).1⟩

theorem inst_fmt (l : Char) (a : String) (n : ℕ) (b : String) (r : List Char) (ha : a.toList = l :: r)
    (hr : ∀ c ∈ r, okL c = true) (hb : ∀ c ∈ b.toList, okL c = true) : InstOk l (fmt a n b) := by
  refine ⟨r ++ (Nat.toDigits 10 n ++ b.toList), ?_, fun c hc => ?_⟩
  · unfold fmt
    rw [String.toList_append, String.toList_append, ha]
    simp
  · rcases List.mem_append.1 hc with hc | hc
    · exact hr c hc
    · rcases List.mem_append.1 hc with hc | hc
      · exact (digits_ok n c hc).2
      · exact hb c hc

theorem inst_fmt2 (l : Char) (p a : String) (n m : ℕ) (r : List Char) (hp : p.toList = l :: r)
    (hr : ∀ c ∈ r, okL c = true) (ha : ∀ c ∈ a.toList, okL c = true) : InstOk l (p ++ fmt2 a n m) := by
  refine ⟨r ++ (a.toList ++ (Nat.toDigits 10 n ++ '_' :: Nat.toDigits 10 m)), ?_, fun c hc => ?_⟩
  · unfold fmt2
    simp [String.toList_append, hp]
  · rcases List.mem_append.1 hc with hc | hc
    · exact hr c hc
    · rcases List.mem_append.1 hc with hc | hc
      · exact ha c hc
      · rcases List.mem_append.1 hc with hc | hc
        · exact (digits_ok n c hc).2
        · rcases List.mem_cons.1 hc with rfl | hc
          · decide
          · exact (digits_ok m c hc).2

theorem plain_fmt (a b a' b' : String) (n : ℕ) (ha : a.toList.map Char.toLower = a'.toList)
    (hb : b.toList.map Char.toLower = b'.toList) : plain (fmt a n b).toList = fmt a' n b' := by
  unfold plain NetlistText.lower
  apply String.toList_injective
  rw [String.toList_ofList]
  unfold fmt
  simp only [String.toList_append, List.map_append, ha, hb]
  congr 2
  conv_rhs => rw [← List.map_id n.repr.toList]
  exact List.map_congr_left fun c hc => (okL_char (digits_ok n c (by simpa using hc)).2).2

/-! ## Lines -/

/-- the number that is read where `r` was printed -/
noncomputable def seen (num : ℝ → Text) (val : Text → Option ℝ) (r : ℝ) : ℝ := (val (num r)).getD 0

/-- a device with its values as they are read -/
def onDev (ρ : ℝ → ℝ) : Device ℝ → Device ℝ
  | .res r => .res (ρ r)
  | .cap c => .cap (ρ c)
  | .ind l => .ind (ρ l)
  | .vccs g => .vccs (ρ g)
  | d => d

/-- a line with its values as they are read -/
def onLine (ρ : ℝ → ℝ) (l : Line ℝ) : Line ℝ := ⟨l.inst, onDev ρ l.dev, l.nodes⟩

/-- a line in small letters -/
def small (l : Line ℝ) : Line ℝ :=
  ⟨plain l.inst.toList, (match l.dev with | .sub n => .sub (plain n.toList) | d => d),
    l.nodes.map fun a => plain a.toList⟩

/-- the letter and the number of nodes of a device, and whether its value can be read -/
def DevOk (num : ℝ → Text) (val : Text → Option ℝ) (l : Line ℝ) : Prop :=
  match l.dev with
  | .res r => InstOk 'R' l.inst ∧ l.nodes.length = 2 ∧ Word (num r) ∧ (val (num r)).isSome
  | .cap r => InstOk 'C' l.inst ∧ l.nodes.length = 2 ∧ Word (num r) ∧ (val (num r)).isSome
  | .vccs r => InstOk 'G' l.inst ∧ l.nodes.length = 4 ∧ Word (num r) ∧ (val (num r)).isSome
  | .sub n => InstOk 'X' l.inst ∧ n ≠ "" ∧ ∀ c ∈ n.toList, okL c = true
  | _ => False

/-- a line that can be printed and read -/
def LineOk (num : ℝ → Text) (val : Text → Option ℝ) (l : Line ℝ) : Prop := (∀ a ∈ l.nodes, NodeOk a) ∧ DevOk num val l

theorem lower_ok {t : Text} (h : ∀ c ∈ t, okL c = true) : lower t = t := by
  unfold NetlistText.lower
  conv_rhs => rw [← List.map_id t]
  exact List.map_congr_left fun c hc => (okL_char (h c hc)).2

theorem seen_eq {num : ℝ → Text} {val : Text → Option ℝ} {r : ℝ} (h : (val (num r)).isSome) :
    val (num r) = some (seen num val r) := by
  obtain ⟨y, hy⟩ := Option.isSome_iff_exists.1 h
  unfold seen
  rw [hy]
  rfl

variable {num : ℝ → Text} {val : Text → Option ℝ} {isFloat : Text → Bool} {ids : String → ℕ → String} {w : Wires Obj}

/-- A printed part is read as its line. -/
theorem part_read (e : Part Obj ℝ) (hv : ∀ g, e.dev = .vccs g → e.terms.length = 6 ∧ isFloat (num g) = true)
    (h : LineOk num val (e.line (Obj.name ids) w)) :
    ∃ t st, partText num isFloat ids w e = .ok t ∧ readText t = some [st] ∧
      lineOf val st = some (small (onLine (seen num val) (e.line (Obj.name ids) w))) ∧ ∀ n, st ≠ .ends n := by
  obtain ⟨inst, dev, terms⟩ := e
  obtain ⟨hn, hd⟩ := h
  unfold DevOk at hd
  simp only [Part.line] at hn hd ⊢
  cases dev with
  | res r =>
    simp only [nodeOrder] at hn hd ⊢
    obtain ⟨hi, hl, hw, hs⟩ := hd
    rw [List.length_map] at hl
    obtain ⟨a, b, rfl⟩ := List.length_eq_two.1 hl
    have ha := hn (w.node (Obj.name ids) a) (by simp)
    have hb := hn (w.node (Obj.name ids) b) (by simp)
    obtain ⟨t, h1, h2⟩ := C157_card_partial (half := (1 / 2 : ℝ)) (fmt := num) isFloat (.resistor inst.toList (num r)) []
      [(w.node (Obj.name ids) a).toList, (w.node (Obj.name ids) b).toList] (by
        refine ⟨?_, by simp, rfl, ?_, by simp, by simp⟩
        · simp only [Component.texts, List.mem_cons, List.not_mem_nil, or_false]
          rintro t (rfl | rfl)
          · exact hi.word (by decide)
          · exact hw
        · simp only [List.mem_cons, List.not_mem_nil, or_false]
          rintro t (rfl | rfl)
          · exact ha.net
          · exact hb.net)
    refine ⟨t, _, h1, h2, ?_, by simp [Component.asked]⟩
    simp [Component.asked, lineOf, seen_eq hs, hi.nameOf, small, onLine, onDev]
  | cap r =>
    simp only [nodeOrder] at hn hd ⊢
    obtain ⟨hi, hl, hw, hs⟩ := hd
    rw [List.length_map] at hl
    obtain ⟨a, b, rfl⟩ := List.length_eq_two.1 hl
    have ha := hn (w.node (Obj.name ids) a) (by simp)
    have hb := hn (w.node (Obj.name ids) b) (by simp)
    obtain ⟨t, h1, h2⟩ := C157_card_partial (half := (1 / 2 : ℝ)) (fmt := num) isFloat (.capacitor inst.toList (num r)) []
      [(w.node (Obj.name ids) a).toList, (w.node (Obj.name ids) b).toList] (by
        refine ⟨?_, by simp, rfl, ?_, by simp, by simp⟩
        · simp only [Component.texts, List.mem_cons, List.not_mem_nil, or_false]
          rintro t (rfl | rfl)
          · exact hi.word (by decide)
          · exact hw
        · simp only [List.mem_cons, List.not_mem_nil, or_false]
          rintro t (rfl | rfl)
          · exact ha.net
          · exact hb.net)
    refine ⟨t, _, h1, h2, ?_, by simp [Component.asked]⟩
    simp [Component.asked, lineOf, seen_eq hs, hi.nameOf, small, onLine, onDev]
  | vccs g =>
    obtain ⟨hl, hf⟩ := hv g rfl
    dsimp only at hl
    obtain ⟨p, q, c, d, a, b, rfl⟩ : ∃ p q c d a b, terms = [p, q, c, d, a, b] := by
      match terms, hl with
      | [p, q, c, d, a, b], _ => exact ⟨p, q, c, d, a, b, rfl⟩
    simp only [nodeOrder, List.map_cons, List.map_nil] at hn hd ⊢
    obtain ⟨hi, -, hw, hs⟩ := hd
    have ha := hn (w.node (Obj.name ids) a) (by simp)
    have hb := hn (w.node (Obj.name ids) b) (by simp)
    have hc := hn (w.node (Obj.name ids) c) (by simp)
    have hd := hn (w.node (Obj.name ids) d) (by simp)
    obtain ⟨t, h1, h2⟩ := C157_card_partial (half := (1 / 2 : ℝ)) (fmt := num) isFloat
      (.ota inst.toList "ota".toList (num g)) []
      ["VDD".toList, "VSS".toList, (w.node (Obj.name ids) c).toList, (w.node (Obj.name ids) d).toList,
        (w.node (Obj.name ids) a).toList, (w.node (Obj.name ids) b).toList] (by
        refine ⟨?_, by simp, rfl, ?_, ?_, by simp⟩
        · simp only [Component.texts, List.mem_cons, List.not_mem_nil, or_false]
          rintro t (rfl | rfl | rfl)
          · exact hi.word (by decide)
          · decide
          · exact hw
        · simp only [List.mem_cons, List.not_mem_nil, or_false]
          rintro t (rfl | rfl | rfl | rfl | rfl | rfl)
          · decide
          · decide
          · exact hc.net
          · exact hd.net
          · exact ha.net
          · exact hb.net
        · rintro n m v (h | h)
          · cases h; exact hf
          · cases h)
    refine ⟨t, _, ?_, h2, ?_, by simp [Component.asked]⟩
    · rw [← h1]; rfl
    · simp [Component.asked, lineOf, seen_eq hs, hi.nameOf, small, onLine, onDev]
  | sub n =>
    simp only [nodeOrder] at hn hd ⊢
    obtain ⟨hi, hne, hc⟩ := hd
    have hwn : Word n.toList := ⟨fun e => hne (String.toList_injective e), fun c h => (okL_char (hc c h)).1⟩
    obtain ⟨t, h1, h2⟩ := C157_card_partial (half := (1 / 2 : ℝ)) (fmt := num) isFloat
      (.sub inst.toList n.toList terms.length []) [] (terms.map fun t => (w.node (Obj.name ids) t).toList) (by
        refine ⟨?_, by simp, by simp [Component.pins], ?_, by simp, ?_⟩
        · simp only [Component.texts, List.flatMap_nil, List.mem_cons, List.not_mem_nil, or_false]
          rintro t (rfl | rfl)
          · exact hi.word (by decide)
          · exact hwn
        · intro t ht
          obtain ⟨x, hx, rfl⟩ := List.mem_map.1 ht
          exact (hn _ (List.mem_map.2 ⟨x, hx, rfl⟩)).net
        · rintro _ _ _ _ h
          cases h; rfl)
    refine ⟨t, _, h1, h2, ?_, by simp [Component.asked]⟩
    have er : (List.range terms.length).map (fun i => (terms.map fun t => (w.node (Obj.name ids) t).toList).getD i []) =
        terms.map fun t => (w.node (Obj.name ids) t).toList := by
      apply List.ext_getElem
      · simp
      · intro i h1 h2
        simp at h1
        simp [h1]
    simp only [Component.asked, lineOf, er]
    simp [hi.nameOf, small, onLine, onDev, lower_ok hc]
  | ind l => exact hd.elim
  | vcvs g => exact hd.elim
  | sum g o => exact hd.elim
  | delay d => exact hd.elim
  | other m => exact hd.elim

theorem bodyOf_cons {name : Text} {st : Stmt} {r : List Stmt} (hs : ∀ n, st ≠ .ends n) {l : Line ℝ} {ls : List (Line ℝ)}
    (h1 : lineOf val st = some l) (h2 : bodyOf val name r = some ls) : bodyOf val name (st :: r) = some (l :: ls) := by
  cases st with
  | ends n => exact absurd rfl (hs n)
  | _ => simp only [bodyOf, h1, h2]

/-- The printed parts are read as their lines. -/
theorem parts_read (es : List (Part Obj ℝ))
    (hv : ∀ e ∈ es, ∀ g, e.dev = .vccs g → e.terms.length = 6 ∧ isFloat (num g) = true)
    (h : ∀ e ∈ es, LineOk num val (e.line (Obj.name ids) w)) :
    ∃ ts sts, partTexts num isFloat ids w es = .ok ts ∧
      (∀ b y, readText b = some y →
        readText (ts.flatMap (fun p => "    ".toList ++ p ++ ['\n']) ++ b) = some (sts ++ y)) ∧
      ∀ name r ls, bodyOf val name r = some ls → bodyOf val name (sts ++ r) =
        some (es.map (fun e => small (onLine (seen num val) (e.line (Obj.name ids) w))) ++ ls) := by
  induction es with
  | nil => exact ⟨[], [], rfl, fun b y hb => hb, fun name r ls hr => hr⟩
  | cons e es ih =>
    obtain ⟨ts, sts, h1, h2, h3⟩ := ih (fun d hd => hv d (List.mem_cons_of_mem _ hd)) fun d hd => h d (List.mem_cons_of_mem _ hd)
    obtain ⟨t, st, p1, p2, p3, p4⟩ := part_read (isFloat := isFloat) e (hv e List.mem_cons_self) (h e List.mem_cons_self)
    refine ⟨t :: ts, st :: sts, ?_, fun b y hb => ?_, fun name r ls hr => ?_⟩
    · unfold partTexts
      rw [p1]
      dsimp only
      rw [h1]
    · have := readText_break ((readText_indent t).trans p2) (h2 b y hb)
      rw [List.flatMap_cons, List.append_assoc, List.append_assoc]
      exact this
    · exact bodyOf_cons p4 p3 (h3 name r ls hr)

/-- The printed definition of a sub-circuit is read as its netlist. -/
theorem sub_read (name : String) (hne : name ≠ "") (hname : ∀ c ∈ name.toList, okL c = true) (ports : List String)
    (s : Sub Obj ℝ) (hp : ∀ p ∈ ports, s.wires.node (Obj.name ids) (.own p) = p ∧ NodeOk p)
    (hv : ∀ e ∈ s.parts, ∀ g, e.dev = .vccs g → e.terms.length = 6 ∧ isFloat (num g) = true)
    (h : ∀ l ∈ s.netlist (Obj.name ids), LineOk num val l) :
    ∃ t, subText num isFloat ids name ports s = .ok t ∧ readDef val t =
      some (name, ⟨ports.map fun p => plain p.toList,
        (s.netlist (Obj.name ids)).map fun l => small (onLine (seen num val) l)⟩) := by
  have hw : Word name.toList := ⟨fun e => hne (String.toList_injective e), fun c h => (okL_char (hname c h)).1⟩
  obtain ⟨ts, sts, h1, h2, h3⟩ := parts_read (isFloat := isFloat) (ids := ids) (w := s.wires) s.parts hv
    fun e he => h _ (List.mem_map_of_mem he)
  have ep : (ports.map fun p => (s.wires.node (Obj.name ids) (.own p)).toList) = ports.map String.toList :=
    List.map_congr_left fun p hpm => by rw [(hp p hpm).1]
  refine ⟨_, by unfold subText; rw [h1], ?_⟩
  rw [ep]
  have hb : bodyOf val name.toList [.ends name.toList] = some [] := by simp [bodyOf]
  have hr := readText_break (subckt_read hw (terminals := ports.map String.toList) (by
    intro t ht
    obtain ⟨p, hpm, rfl⟩ := List.mem_map.1 ht
    exact (hp p hpm).2.net.1)) (h2 _ _ (ends_read hw))
  have e : ∀ a b c : Text, a ++ '\n' :: (b ++ c) = a ++ ['\n'] ++ b ++ c := fun a b c => by
    rw [List.append_assoc, List.append_assoc]; rfl
  rw [e, ← List.append_assoc] at hr
  have hr' : readText (definitionText name.toList (ports.map String.toList) ts) =
    some (.subckt name.toList (ports.map String.toList) :: (sts ++ [.ends name.toList])) := hr
  unfold readDef
  rw [hr']
  dsimp only
  rw [h3 _ _ _ hb, List.append_nil, Option.map_some, List.map_map]
  have en : plain name.toList = name := by
    unfold plain
    rw [lower_ok hname, String.ofList_toList]
  rw [en]
  congr 3
  unfold Sub.netlist
  rw [List.map_map]
  rfl

/-! ## Circuits in small letters -/

/-- the quantities of a circuit in small letters, under the printed names -/
def pull (sol : Sol) : Sol := ⟨fun a => sol.v (plain a.toList), fun e => sol.i (plain e.toList)⟩

/-- the quantities of a circuit, under the names in small letters -/
def push (sol : Sol) : Sol := ⟨fun a => sol.v (raise a), fun e => sol.i (capital e)⟩

/-- a line of one of the devices of the frontends -/
def Shape (l : Line ℝ) : Prop :=
  (∀ a ∈ l.nodes, ∀ c ∈ a.toList, okU c = true) ∧ capital (plain l.inst.toList) = l.inst ∧
  match l.dev with
  | .res _ => l.nodes.length = 2
  | .cap _ => l.nodes.length = 2
  | .vccs _ => l.nodes.length = 4
  | .sub n => plain n.toList = n
  | _ => False

theorem LineOk.shape {l : Line ℝ} (h : LineOk num val l) (ρ : ℝ → ℝ) : Shape (onLine ρ l) := by
  obtain ⟨inst, dev, nodes⟩ := l
  obtain ⟨hn, hd⟩ := h
  unfold DevOk at hd
  refine ⟨fun a ha => (hn a ha).2, ?_⟩
  cases dev with
  | res r => exact ⟨hd.1.capital (by decide), hd.2.1⟩
  | cap r => exact ⟨hd.1.capital (by decide), hd.2.1⟩
  | vccs r => exact ⟨hd.1.capital (by decide), hd.2.1⟩
  | sub n =>
    refine ⟨hd.1.capital (by decide), ?_⟩
    show plain n.toList = n
    unfold plain
    rw [lower_ok hd.2.2, String.ofList_toList]
  | ind l => exact hd.elim
  | vcvs g => exact hd.elim
  | sum g o => exact hd.elim
  | delay d => exact hd.elim
  | other m => exact hd.elim

theorem getD_plain (nodes : List String) (k : ℕ) :
    (nodes.map fun a => plain a.toList).getD k "" = plain (nodes.getD k "").toList := by
  rw [List.getD_eq_getElem?_getD, List.getD_eq_getElem?_getD, List.getElem?_map]
  cases nodes[k]? <;> rfl

theorem obeys_small {l : Line ℝ} (h : Shape l) (law : Law) (sol : Sol) :
    Obeys law sol (small l) ↔ Obeys law (pull sol) l := by
  obtain ⟨inst, dev, nodes⟩ := l
  obtain ⟨-, -, h⟩ := h
  cases dev with
  | res r =>
    obtain ⟨a, b, rfl⟩ := List.length_eq_two.1 h
    exact Iff.rfl
  | cap r =>
    obtain ⟨a, b, rfl⟩ := List.length_eq_two.1 h
    exact Iff.rfl
  | vccs r =>
    match nodes, h with
    | [a, b, p, q], _ => exact Iff.rfl
  | sub n =>
    have hn : plain n.toList = n := h
    show law (plain n.toList) (fun k => sol.v ((nodes.map fun a => plain a.toList).getD k "")) _ ↔
      law n (fun k => sol.v (plain (nodes.getD k "").toList)) _
    rw [hn]
    simp only [getD_plain]
    rfl
  | ind l => exact h.elim
  | vcvs g => exact h.elim
  | sum g o => exact h.elim
  | delay d => exact h.elim
  | other m => exact h.elim

theorem plain_inj {a b : String} (ha : ∀ c ∈ a.toList, okU c = true) (hb : ∀ c ∈ b.toList, okU c = true) :
    plain a.toList = plain b.toList ↔ a = b :=
  ⟨fun e => by rw [← NodeOk.raise ha, e, NodeOk.raise hb], fun e => by rw [e]⟩

theorem inflow_small {l : Line ℝ} (h : Shape l) (sol : Sol) {a : String} (ha : ∀ c ∈ a.toList, okU c = true) (t : ℝ) :
    inflow sol (plain a.toList) t (small l) = inflow (pull sol) a t l := by
  unfold inflow small
  dsimp only
  congr 1
  apply List.ext_getElem
  · simp
  · intro i h1 h2
    simp only [List.length_mapIdx, List.length_map] at h1
    simp only [List.getElem_mapIdx, List.getElem_map]
    have := plain_inj (h.1 _ (List.getElem_mem h1)) ha
    by_cases e : l.nodes[i] = a
    · rw [if_pos e, if_pos (this.2 e)]; rfl
    · rw [if_neg e, if_neg (fun x => e (this.1 x))]

theorem leaving_small {body : List (Line ℝ)} (h : ∀ l ∈ body, Shape l) (sol : Sol) {a : String}
    (ha : ∀ c ∈ a.toList, okU c = true) (t : ℝ) :
    leaving sol (body.map small) (plain a.toList) t = leaving (pull sol) body a t := by
  unfold leaving
  rw [List.map_map]
  congr 1
  exact List.map_congr_left fun l hl => inflow_small (h l hl) sol ha t

theorem push_v (sol : Sol) {a : String} (ha : ∀ c ∈ a.toList, okU c = true) : (pull (push sol)).v a = sol.v a := by
  show sol.v (raise (plain a.toList)) = _
  rw [NodeOk.raise ha]

theorem push_i (sol : Sol) {l : Line ℝ} (h : Shape l) : (pull (push sol)).i l.inst = sol.i l.inst := by
  show sol.i (capital (plain l.inst.toList)) = _
  rw [h.2.1]

theorem obeys_push {l : Line ℝ} (h : Shape l) {law : Law} {sol : Sol} (ho : Obeys law sol l) :
    Obeys law (push sol) (small l) := by
  rw [obeys_small h]
  have hi := push_i sol h
  have hv : ∀ a ∈ l.nodes, (pull (push sol)).v a = sol.v a := fun a ha => push_v sol (h.1 a ha)
  obtain ⟨inst, dev, nodes⟩ := l
  obtain ⟨-, -, h⟩ := h
  dsimp only at hi hv
  cases dev with
  | res r =>
    obtain ⟨a, b, rfl⟩ := List.length_eq_two.1 h
    simp only [List.forall_mem_cons] at hv
    simp only [Obeys] at ho ⊢
    rw [hi, hv.1, hv.2.1]
    exact ho
  | cap r =>
    obtain ⟨a, b, rfl⟩ := List.length_eq_two.1 h
    simp only [List.forall_mem_cons] at hv
    simp only [Obeys] at ho ⊢
    rw [hi, hv.1, hv.2.1]
    exact ho
  | vccs r =>
    match nodes, h with
    | [a, b, p, q], _ =>
      simp only [List.forall_mem_cons] at hv
      simp only [Obeys] at ho ⊢
      rw [hi, hv.2.2.1, hv.2.2.2.1]
      exact ho
  | sub n =>
    have e : (fun k => (pull (push sol)).v (nodes.getD k "")) = fun k => sol.v (nodes.getD k "") := by
      funext k
      by_cases hk : k < nodes.length
      · rw [List.getD_eq_getElem?_getD, List.getElem?_eq_getElem hk]
        exact hv _ (List.getElem_mem hk)
      · rw [List.getD_eq_getElem?_getD, List.getElem?_eq_none (by omega)]
        exact push_v sol (by simp)
    simp only [Obeys] at ho ⊢
    rw [hi, e]
    exact ho
  | ind l => exact h.elim
  | vcvs g => exact h.elim
  | sum g o => exact h.elim
  | delay d => exact h.elim
  | other m => exact h.elim

theorem leaving_push {body : List (Line ℝ)} (h : ∀ l ∈ body, Shape l) (sol : Sol) {a : String}
    (ha : ∀ c ∈ a.toList, okU c = true) (t : ℝ) :
    leaving (push sol) (body.map small) (plain a.toList) t = leaving sol body a t := by
  rw [leaving_small h _ ha]
  unfold leaving inflow
  congr 1
  exact List.map_congr_left fun l hl => by simp only [push_i sol (h l hl)]

theorem insts_small {body : List (Line ℝ)} (h : ∀ l ∈ body, Shape l) (hn : (body.map Line.inst).Nodup) :
    ((body.map small).map Line.inst).Nodup := by
  have e : (body.map small).map Line.inst = (body.map Line.inst).map fun i => plain i.toList := by
    rw [List.map_map, List.map_map]; rfl
  rw [e]
  refine List.Nodup.map_on ?_ hn
  intro a ha b hb hab
  obtain ⟨l, hl, rfl⟩ := List.mem_map.1 ha
  obtain ⟨m, hm, rfl⟩ := List.mem_map.1 hb
  rw [← (h l hl).2.1, ← (h m hm).2.1]
  exact congrArg capital hab

/-! ## Rounded values -/

/-- the entry of a matrix that a resistor read with an error stands for, `C` being the capacitance -/
noncomputable def ofRes (ρ : ℝ → ℝ) (C v : ℝ) : ℝ :=
  if v = 0 then 0 else if v < 0 then -(1 / (ρ C * ρ (1 / (1 * C * |v|)))) else 1 / (ρ C * ρ (1 / (1 * C * |v|)))

theorem near_seen {ε r : ℝ} (h : Near num val ε r) : |seen num val r - r| ≤ ε * |r| := by
  obtain ⟨_, y, hy, h⟩ := h
  unfold seen
  rw [hy]
  exact h

/-- a value that is read is the printed one times a factor near one -/
theorem near_factor {ε r : ℝ} (hr : r ≠ 0) (h : Near num val ε r) :
    ∃ f, seen num val r = f * r ∧ 1 - ε ≤ f ∧ f ≤ 1 + ε := by
  have h1 := near_seen h
  refine ⟨seen num val r / r, by field_simp, ?_⟩
  have h2 : |seen num val r / r - 1| ≤ ε := by
    have e : seen num val r / r - 1 = (seen num val r - r) / r := by field_simp
    rw [e, abs_div, div_le_iff₀ (abs_pos.2 hr)]
    exact h1
  have := abs_le.1 h2
  constructor <;> linarith [this.1, this.2]

/-- The entry that is read. -/
theorem ofRes_spec {ε C v : ℝ} (hε : ε < 1) (hC : C ≠ 0) (hv : v ≠ 0) (h1 : Near num val ε C)
    (h2 : Near num val ε (1 / (C * |v|))) :
    ofRes (seen num val) C v ≠ 0 ∧ (ofRes (seen num val) C v < 0 ↔ v < 0) ∧
      1 / (1 * seen num val C * |ofRes (seen num val) C v|) = seen num val (1 / (1 * C * |v|)) ∧
      |ofRes (seen num val) C v - v| ≤ (1 / (1 - ε) ^ 2 - 1) * |v| := by
  have hav : 0 < |v| := abs_pos.2 hv
  have hr : 1 / (C * |v|) ≠ 0 := by positivity
  obtain ⟨f, hf, f1, f2⟩ := near_factor hC h1
  obtain ⟨g, hg, g1, g2⟩ := near_factor hr h2
  have hf0 : 0 < f := by linarith
  have hg0 : 0 < g := by linarith
  have e : 1 / (seen num val C * seen num val (1 / (1 * C * |v|))) = |v| / (f * g) := by
    rw [one_mul, hf, hg]
    field_simp
  have hpos : 0 < |v| / (f * g) := by positivity
  have habs : |ofRes (seen num val) C v| = |v| / (f * g) := by
    unfold ofRes
    rw [if_neg hv, e]
    split
    · rw [abs_neg, abs_of_pos hpos]
    · rw [abs_of_pos hpos]
  have hsg : ofRes (seen num val) C v = v / (f * g) := by
    unfold ofRes
    rw [if_neg hv, e]
    by_cases hn : v < 0
    · rw [if_pos hn, abs_of_neg hn]; ring
    · rw [if_neg hn, abs_of_nonneg (not_lt.1 hn)]
  refine ⟨?_, ?_, ?_, ?_⟩
  · rw [hsg]; positivity
  · rw [hsg]
    constructor
    · intro h
      by_contra hn
      have : 0 ≤ v / (f * g) := div_nonneg (not_lt.1 hn) (by positivity)
      linarith
    · intro h
      exact div_neg_of_neg_of_pos h (by positivity)
  · rw [habs, one_mul, one_mul, hf, hg]
    field_simp
  · rw [hsg]
    have hε0 : 0 ≤ ε := by linarith
    have e2 : v / (f * g) - v = (1 / (f * g) - 1) * v := by field_simp
    rw [e2, abs_mul]
    refine mul_le_mul_of_nonneg_right ?_ hav.le
    have l1 : (1 - ε) ^ 2 ≤ f * g := by nlinarith
    have l2 : f * g ≤ (1 + ε) ^ 2 := by nlinarith
    have p1 : 0 < 1 - ε := by linarith
    have a1 : 1 / (f * g) ≤ 1 / (1 - ε) ^ 2 := one_div_le_one_div_of_le (by positivity) l1
    have a2 : 1 / (1 + ε) ^ 2 ≤ 1 / (f * g) := one_div_le_one_div_of_le (by positivity) l2
    have a3 : 2 ≤ 1 / (1 - ε) ^ 2 + 1 / (1 + ε) ^ 2 := by
      rw [div_add_div _ _ (by positivity) (by positivity), le_div_iff₀ (by positivity)]
      have b1 : ε ^ 2 ≤ 1 := by nlinarith
      have b2 : 0 ≤ ε ^ 2 * (1 - ε ^ 2) := mul_nonneg (sq_nonneg _) (by linarith)
      nlinarith [sq_nonneg ε]
    rw [abs_le]
    constructor <;> linarith

end Cbadc.FrontendText
