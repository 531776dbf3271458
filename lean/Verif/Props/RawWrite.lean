import Verif.Props.RawRead
import Verif.Lemmas.PyStr
/-
C24: a RAW file written by RawWrite is read back by RawRead.
-/
namespace Props.RawWrite
open Model.RawFile Model.PyStr Lemmas.PyStr Props.RawRead
open Spec.RawLayout (samples fastOffset pointOffset)

/-! ### Specification -/

/-- Characters that the encoding of the file can represent (see Model.RawFile). -/
def Encodable : Enc → Char → Prop
  | .utf8, c => c.toNat < 128
  | .utf16, c => c.toNat < 65536

/-- Text that fits on a header line. -/
def OneLine (e : Enc) (s : Str) : Prop := ∀ c ∈ s, Encodable e c ∧ c ≠ '\n' ∧ c ≠ '\r'

/-- A writer holding traces that RawWrite accepts: at least one trace, at least one point, all traces equally long
(add_trace checks it), samples of the width of their type, distinct names, and texts that fit on a header line. -/
structure WellFormed (w : Writer) (date offset : Str) : Prop where
  nonempty : w.traces ≠ []
  points : 0 < nPoints w
  lengths : ∀ t ∈ w.traces, t.data.length = nPoints w
  widths : ∀ t ∈ w.traces, ∀ x ∈ t.data, x.length = t.num.width
  names : (w.traces.map Trace.name).Nodup
  nameText : ∀ t ∈ w.traces, OneLine w.enc t.name ∧ '\t' ∉ t.name
  kindText : ∀ t ∈ w.traces, OneLine w.enc t.whattype ∧ '\t' ∉ t.whattype
  plotText : OneLine w.enc (w.plotName.getD "None".toList)
  dateText : OneLine w.enc date
  offsetText : OneLine w.enc offset

/-- The combinations of flags and sample types that an LTspice RAW file can express: flag `real` with an axis in double
precision and the other traces in single precision, flag `double` with everything in double precision, or flag `complex`
with everything complex and without fast access. -/
inductive Compatible (w : Writer) : Prop where
  | real (t0 : Trace) (ts : List Trace) : w.numtype = "real".toList → w.traces = t0 :: ts → t0.num = .double →
      (∀ t ∈ ts, t.num = .real) → lower (strip (w.plotName.getD "None".toList)) ≠ "ac analysis".toList → Compatible w
  | double : w.numtype = "double".toList → (∀ t ∈ w.traces, t.num = .double) →
      lower (strip (w.plotName.getD "None".toList)) ≠ "ac analysis".toList → Compatible w
  | complex : w.numtype = "complex".toList → w.fast = false → (∀ t ∈ w.traces, t.num = .complex) → Compatible w

/-! ### Text -/

theorem nextChar_enc (e : Enc) (c : Char) (rest : List Byte) (h : Encodable e c) :
    nextChar e (encChar e c ++ rest) = some (c, rest) := by
  have hv : c.toNat.isValidChar := c.valid
  have hc : decUnit c.toNat = c := by
    unfold decUnit
    rw [if_pos hv, Char.ofNat_toNat]
  cases e with
  | utf8 =>
    simp only [Encodable] at h
    have h1 : (UInt8.ofNat c.toNat).toNat = c.toNat := by
      rw [UInt8.toNat_ofNat']; omega
    simp only [encChar, List.cons_append, List.nil_append, nextChar, h1, if_pos h, hc]
  | utf16 =>
    simp only [Encodable] at h
    have h1 : (UInt8.ofNat (c.toNat % 256)).toNat = c.toNat % 256 := by
      rw [UInt8.toNat_ofNat']; omega
    have h2 : (UInt8.ofNat (c.toNat / 256)).toNat = c.toNat / 256 := by
      rw [UInt8.toNat_ofNat']; omega
    have h3 : c.toNat % 256 + 256 * (c.toNat / 256) = c.toNat := by omega
    simp only [encChar, List.cons_append, List.nil_append, nextChar, h1, h2, h3, hc]

theorem enc_newline (e : Enc) : Encodable e '\n' := by cases e <;> simp [Encodable]

/-- What the reader does at the end of a header line `x`. -/
def finish (e : Enc) (fuel : Nat) (rest : List Byte) (acc : List Str) (x : Str) : List Str × Option Str × List Byte :=
  let l := rstripChar '\r' x
  if lower l = "binary:".toList ∨ lower l = "values:".toList then (acc ++ [l], some (lower l), rest)
  else readHeader e fuel rest [] (acc ++ [l])

theorem readHeader_line (e : Enc) (rest : List Byte) (acc : List Str) : ∀ (l cur : Str) (fuel : Nat), OneLine e l →
    readHeader e (fuel + (l.length + 1)) (encode e (l ++ ['\n']) ++ rest) cur acc = finish e fuel rest acc (cur ++ l) := by
  intro l
  induction l with
  | nil =>
    intro cur fuel _
    have hn := nextChar_enc e '\n' rest (enc_newline e)
    simp only [List.length_nil, Nat.zero_add, List.nil_append, encode, List.flatMap_cons, List.flatMap_nil, List.append_nil,
      readHeader, hn, if_pos]
    rfl
  | cons c l ih =>
    intro cur fuel h
    have hc := h c (by simp)
    have hn := nextChar_enc e c (encode e (l ++ ['\n']) ++ rest) hc.1
    have he : encode e (c :: l ++ ['\n']) ++ rest = encChar e c ++ (encode e (l ++ ['\n']) ++ rest) := by
      simp [encode]
    rw [he, List.length_cons, show fuel + (l.length + 1 + 1) = (fuel + (l.length + 1)) + 1 by omega]
    rw [readHeader, hn]
    simp only [if_neg hc.2.1]
    rw [ih (cur ++ [c]) fuel (fun d hd => h d (by simp [hd]))]
    simp

/-- A header line that is not the last one. -/
def Plain (e : Enc) (l : Str) : Prop := OneLine e l ∧ lower l ≠ "binary:".toList ∧ lower l ≠ "values:".toList

theorem readHeader_lines (e : Enc) (rest : List Byte) : ∀ (ls acc : List Str) (fuel : Nat), (∀ l ∈ ls, Plain e l) →
    readHeader e (fuel + (ls.map (fun l => l.length + 1)).sum) (encodeLines e ls ++ rest) [] acc
      = readHeader e fuel rest [] (acc ++ ls) := by
  intro ls
  induction ls with
  | nil => intro acc fuel _; simp [encodeLines]
  | cons l ls ih =>
    intro acc fuel h
    have hl := h l (by simp)
    have he : encodeLines e (l :: ls) ++ rest = encode e (l ++ ['\n']) ++ (encodeLines e ls ++ rest) := by
      simp [encodeLines]
    rw [he, List.map_cons, List.sum_cons,
      show fuel + (l.length + 1 + (ls.map (fun l => l.length + 1)).sum)
        = (fuel + (ls.map (fun l => l.length + 1)).sum) + (l.length + 1) by omega,
      readHeader_line e _ acc l [] _ hl.1]
    unfold finish
    have hr : rstripChar '\r' ([] ++ l) = l := by
      rw [List.nil_append]; exact rstripChar_clean _ _ (fun d hd => (hl.1 d hd).2.2)
    simp only [hr]
    rw [if_neg (by rintro (h1 | h1); exact hl.2.1 h1; exact hl.2.2 h1), ih _ _ (fun m hm => h m (by simp [hm]))]
    simp

theorem encChar_length (e : Enc) (c : Char) : 1 ≤ (encChar e c).length := by cases e <;> simp [encChar]

theorem encode_length (e : Enc) (s : Str) : s.length ≤ (encode e s).length := by
  induction s with
  | nil => simp [encode]
  | cons c s ih =>
    have := encChar_length e c
    simp only [encode, List.flatMap_cons, List.length_append, List.length_cons] at ih ⊢
    omega

theorem encodeLines_length (e : Enc) (ls : List Str) : (ls.map (fun l => l.length + 1)).sum ≤ (encodeLines e ls).length := by
  induction ls with
  | nil => simp [encodeLines]
  | cons l ls ih =>
    have := encode_length e (l ++ ['\n'])
    simp only [encodeLines, List.flatMap_cons, List.length_append, List.map_cons, List.sum_cons, List.length_singleton] at ih this ⊢
    omega

/-- A literal ASCII text fits on a header line. -/
theorem oneLine_ascii (e : Enc) (s : Str) (h : s.all (fun c => c.toNat < 128 && c ≠ '\n' && c ≠ '\r') = true) : OneLine e s := by
  intro c hc
  rw [List.all_eq_true] at h
  have := h c hc
  simp only [Bool.and_eq_true, decide_eq_true_eq] at this
  refine ⟨?_, this.1.2, this.2⟩
  cases e
  · exact this.1.1
  · have := this.1.1; simp only [Encodable]; omega

theorem oneLine_append (e : Enc) (a b : Str) (ha : OneLine e a) (hb : OneLine e b) : OneLine e (a ++ b) := by
  intro c hc
  rcases List.mem_append.mp hc with h | h
  · exact ha c h
  · exact hb c h

theorem oneLine_nat (e : Enc) (n : Nat) : OneLine e (showNat n) := by
  intro c hc
  obtain ⟨_, _, h1, h2, h3⟩ := digit_props c (showNat_digits n c hc)
  refine ⟨?_, h1, h2⟩
  cases e
  · exact h3
  · simp only [Encodable]; omega

theorem oneLine_cons (e : Enc) (c : Char) (b : Str) (hc : OneLine e [c]) (hb : OneLine e b) : OneLine e (c :: b) :=
  oneLine_append e [c] b hc hb

/-- A line starting with a character other than b, B, v, V is not the end of the header. -/
theorem plain_of_head (e : Enc) (c : Char) (l : Str) (h : OneLine e (c :: l)) (h1 : c.toLower ≠ 'b') (h2 : c.toLower ≠ 'v') :
    Plain e (c :: l) := by
  refine ⟨h, ?_, ?_⟩
  · intro hc
    have : lower (c :: l) = c.toLower :: lower l := rfl
    rw [this] at hc
    have hl : "binary:".toList = 'b' :: "inary:".toList := rfl
    rw [hl] at hc
    exact h1 (List.cons.inj hc).1
  · intro hc
    have : lower (c :: l) = c.toLower :: lower l := rfl
    rw [this] at hc
    have hl : "values:".toList = 'v' :: "alues:".toList := rfl
    rw [hl] at hc
    exact h2 (List.cons.inj hc).1

theorem oneLine_numtype (w : Writer) (h : Compatible w) : w.numtype = "real".toList ∨ w.numtype = "double".toList ∨ w.numtype = "complex".toList := by
  cases h with
  | real _ _ h => exact Or.inl h
  | double h => exact Or.inr (Or.inl h)
  | complex h => exact Or.inr (Or.inr h)

theorem flags_text (w : Writer) (e : Enc) (h : Compatible w) : OneLine e (strFlags w) := by
  apply oneLine_ascii
  rcases oneLine_numtype w h with h | h | h <;>
    (unfold strFlags; rw [h]; cases w.forward <;> cases w.log <;> cases w.stepped <;> cases w.fast <;> decide)

theorem pad12_text (e : Enc) (n : Nat) : OneLine e (pad12 (showNat n)) := by
  unfold pad12
  apply oneLine_append _ _ _ _ (oneLine_nat e n)
  intro c hc
  rw [List.eq_of_mem_replicate hc]
  exact (oneLine_ascii e [' '] (by decide)) ' ' (by simp)

theorem varLine_text (e : Enc) (i : Nat) (t : Trace) (h1 : OneLine e t.name) (h2 : OneLine e t.whattype) :
    Plain e (varLine i t) := by
  unfold varLine
  apply plain_of_head _ _ _ _ (by decide) (by decide)
  have htab := oneLine_ascii e ['\t'] (by decide)
  apply oneLine_cons _ _ _ htab
  have e1 : showNat i ++ '\t' :: t.name ++ '\t' :: t.whattype = showNat i ++ ('\t' :: t.name ++ '\t' :: t.whattype) := by simp
  apply oneLine_append _ _ _ (oneLine_append _ _ _ (oneLine_nat e i) (oneLine_cons _ _ _ htab h1))
  exact oneLine_cons _ _ _ htab h2

theorem varLines_text (e : Enc) : ∀ (ts : List Trace) (i : Nat), (∀ t ∈ ts, OneLine e t.name ∧ OneLine e t.whattype) →
    ∀ l ∈ varLines i ts, Plain e l := by
  intro ts
  induction ts with
  | nil => intro i _ l hl; exact absurd hl (by simp [varLines])
  | cons t ts ih =>
    intro i h l hl
    simp only [varLines, List.mem_cons] at hl
    rcases hl with rfl | hl
    · exact varLine_text e i t (h t (by simp)).1 (h t (by simp)).2
    · exact ih (i + 1) (fun t ht => h t (by simp [ht])) l hl

/-- The header without its last line. -/
def headPart (w : Writer) (date offset : Str) : List Str :=
  [ "Title: * spicelib RawWrite".toList,
    "Date: ".toList ++ date,
    "Plotname: ".toList ++ w.plotName.getD "None".toList,
    "Flags: ".toList ++ strFlags w,
    "No. Variables: ".toList ++ showNat w.traces.length,
    "No. Points: ".toList ++ pad12 (showNat (nPoints w)),
    "Offset:   ".toList ++ offset,
    "Command: Linear Technology Corporation LTspice XVII".toList,
    "Variables:".toList ]

theorem headerLines_eq (w : Writer) (date offset : Str) :
    headerLines w date offset = (headPart w date offset ++ varLines 0 w.traces) ++ ["Binary:".toList] := by
  unfold headerLines headPart; rfl

theorem plain_lit (e : Enc) (c : Char) (a b : Str) (ha : (c :: a).all (fun c => c.toNat < 128 && c ≠ '\n' && c ≠ '\r') = true)
    (hb : OneLine e b) (h1 : c.toLower ≠ 'b') (h2 : c.toLower ≠ 'v') : Plain e ((c :: a) ++ b) := by
  apply plain_of_head _ _ _ _ h1 h2
  exact oneLine_append e (c :: a) b (oneLine_ascii e _ ha) hb

theorem headPart_plain (w : Writer) (date offset : Str) (hw : WellFormed w date offset) (hc : Compatible w) :
    ∀ l ∈ headPart w date offset, Plain w.enc l := by
  intro l hl
  simp only [headPart, List.mem_cons, List.not_mem_nil, or_false] at hl
  rcases hl with rfl | rfl | rfl | rfl | rfl | rfl | rfl | rfl | rfl
  · exact plain_lit w.enc 'T' "itle: * spicelib RawWrite".toList [] (by decide) (by intro c h; exact absurd h (by simp)) (by decide) (by decide)
  · exact plain_lit w.enc 'D' "ate: ".toList date (by decide) hw.dateText (by decide) (by decide)
  · exact plain_lit w.enc 'P' "lotname: ".toList _ (by decide) hw.plotText (by decide) (by decide)
  · exact plain_lit w.enc 'F' "lags: ".toList _ (by decide) (flags_text w _ hc) (by decide) (by decide)
  · exact plain_lit w.enc 'N' "o. Variables: ".toList _ (by decide) (oneLine_nat _ _) (by decide) (by decide)
  · exact plain_lit w.enc 'N' "o. Points: ".toList _ (by decide) (pad12_text _ _) (by decide) (by decide)
  · exact plain_lit w.enc 'O' "ffset:   ".toList _ (by decide) hw.offsetText (by decide) (by decide)
  · exact plain_lit w.enc 'C' "ommand: Linear Technology Corporation LTspice XVII".toList [] (by decide) (by intro c h; exact absurd h (by simp)) (by decide) (by decide)
  · exact ⟨oneLine_ascii _ _ (by decide), by decide, by decide⟩

/-- Reading the header of a saved file gives the header lines and the bytes after it. -/
theorem readHeader_save (w : Writer) (date offset : Str) (rest : List Byte) (hw : WellFormed w date offset) (hc : Compatible w)
    (fuel : Nat) (hf : (encodeLines w.enc (headerLines w date offset)).length ≤ fuel) :
    readHeader w.enc fuel (encodeLines w.enc (headerLines w date offset) ++ rest) [] []
      = (headerLines w date offset, some "binary:".toList, rest) := by
  have hlen := encodeLines_length w.enc (headerLines w date offset)
  rw [headerLines_eq] at hf hlen ⊢
  generalize hfirst : headPart w date offset ++ varLines 0 w.traces = first at *
  have hplain : ∀ l ∈ first, Plain w.enc l := by
    intro l hl
    rw [← hfirst] at hl
    rcases List.mem_append.mp hl with h | h
    · exact headPart_plain w date offset hw hc l h
    · exact varLines_text w.enc _ 0 (fun t ht => ⟨(hw.nameText t ht).1, (hw.kindText t ht).1⟩) l h
  have hsum : ((first ++ ["Binary:".toList]).map (fun l => l.length + 1)).sum
      = (first.map (fun l => l.length + 1)).sum + 8 := by
    rw [List.map_append, List.sum_append]; rfl
  rw [hsum] at hlen
  have he : encodeLines w.enc (first ++ ["Binary:".toList]) ++ rest
      = encodeLines w.enc first ++ (encode w.enc ("Binary:".toList ++ ['\n']) ++ rest) := by
    simp [encodeLines]
  obtain ⟨k, hk⟩ : ∃ k, fuel = (k + ("Binary:".toList.length + 1)) + (first.map (fun l => l.length + 1)).sum := by
    have h7 : "Binary:".toList.length + 1 = 8 := by decide
    rw [h7]
    exact ⟨fuel - (first.map (fun l => l.length + 1)).sum - 8, by omega⟩
  rw [he, hk, readHeader_lines w.enc _ first [] _ hplain, readHeader_line _ _ _ _ _ _ (oneLine_ascii _ _ (by decide))]
  unfold finish
  have hr : rstripChar '\r' "Binary:".toList = "Binary:".toList := by decide
  have hb : lower "Binary:".toList = "binary:".toList := by decide
  simp only [List.nil_append, hr, hb, true_or, if_true]

theorem detect_save (w : Writer) (date offset : Str) (rest : List Byte) :
    detectEncoding (encodeLines w.enc (headerLines w date offset) ++ rest) = .ok w.enc := by
  have he : ∃ more : List Byte, encodeLines w.enc (headerLines w date offset) ++ rest
      = encode w.enc "Title: * spicelib RawWrite\n".toList ++ more := by
    refine ⟨encodeLines w.enc (headerLines w date offset).tail ++ rest, ?_⟩
    simp only [headerLines, encodeLines, List.cons_append, List.flatMap_cons, List.tail_cons, List.append_assoc]
    rfl
  obtain ⟨more, hm⟩ := he
  rw [hm]
  cases w.enc
  · have : (encode Enc.utf8 "Title: * spicelib RawWrite\n".toList ++ more).take 6 = encode .utf8 "Title:".toList := rfl
    unfold detectEncoding
    simp only [this]
    rw [if_neg (by decide), if_pos (Or.inl trivial)]
  · have : (encode Enc.utf16 "Title: * spicelib RawWrite\n".toList ++ more).take 6 = encode .utf16 "Tit".toList := rfl
    unfold detectEncoding
    simp only [this]
    rw [if_neg (by decide), if_neg (by decide), if_pos (Or.inl trivial)]

/-! ### Interpreting the header -/

theorem rawParams_kv (k v : Str) (ls : List Str) (d : List (Str × Str)) (h1 : k.all (· ≠ ':') = true)
    (h2 : k.head? ≠ some '.') (h3 : lower k ≠ "variables".toList) (h4 : k ≠ []) :
    rawParams ((k ++ ':' :: v) :: ls) d = rawParams ls (put d (title (strip k)) (strip v)) := by
  have hp : ".".toList.isPrefixOf (k ++ ':' :: v) = false := by
    cases k with
    | nil => exact absurd rfl h4
    | cons c k =>
      have hne : c ≠ '.' := by intro he; apply h2; simp [he]
      show List.isPrefixOf ['.'] (c :: (k ++ ':' :: v)) = false
      simp [List.isPrefixOf, Ne.symm hne]
  have hpart : partition ':' (k ++ ':' :: v) = (k, v) := by
    apply partition_lit
    intro c hc
    rw [List.all_eq_true] at h1
    simpa using h1 c hc
  rw [rawParams, hp, if_neg (by simp), hpart]
  simp only
  rw [if_neg h3]

/-- The raw parameters of a saved file. -/
theorem params_save (w : Writer) (date offset : Str) :
    rawParams (headerLines w date offset) [] =
      [("Title".toList, "* spicelib RawWrite".toList), ("Date".toList, strip (' ' :: date)),
       ("Plotname".toList, strip (' ' :: w.plotName.getD "None".toList)), ("Flags".toList, strip (' ' :: strFlags w)),
       ("No. Variables".toList, strip (' ' :: showNat w.traces.length)),
       ("No. Points".toList, strip (' ' :: pad12 (showNat (nPoints w)))),
       ("Offset".toList, strip ("   ".toList ++ offset)),
       ("Command".toList, "Linear Technology Corporation LTspice XVII".toList)] := by
  unfold headerLines
  simp only [List.cons_append, List.nil_append]
  rw [show "Title: * spicelib RawWrite".toList = "Title".toList ++ ':' :: " * spicelib RawWrite".toList from rfl,
    rawParams_kv _ _ _ _ (by decide) (by decide) (by decide) (by decide),
    show "Date: ".toList ++ date = "Date".toList ++ ':' :: (' ' :: date) from rfl,
    rawParams_kv _ _ _ _ (by decide) (by decide) (by decide) (by decide),
    show "Plotname: ".toList ++ w.plotName.getD "None".toList = "Plotname".toList ++ ':' :: (' ' :: w.plotName.getD "None".toList) from rfl,
    rawParams_kv _ _ _ _ (by decide) (by decide) (by decide) (by decide),
    show "Flags: ".toList ++ strFlags w = "Flags".toList ++ ':' :: (' ' :: strFlags w) from rfl,
    rawParams_kv _ _ _ _ (by decide) (by decide) (by decide) (by decide),
    show "No. Variables: ".toList ++ showNat w.traces.length = "No. Variables".toList ++ ':' :: (' ' :: showNat w.traces.length) from rfl,
    rawParams_kv _ _ _ _ (by decide) (by decide) (by decide) (by decide),
    show "No. Points: ".toList ++ pad12 (showNat (nPoints w)) = "No. Points".toList ++ ':' :: (' ' :: pad12 (showNat (nPoints w))) from rfl,
    rawParams_kv _ _ _ _ (by decide) (by decide) (by decide) (by decide),
    show "Offset:   ".toList ++ offset = "Offset".toList ++ ':' :: ("   ".toList ++ offset) from rfl,
    rawParams_kv _ _ _ _ (by decide) (by decide) (by decide) (by decide),
    show "Command: Linear Technology Corporation LTspice XVII".toList
      = "Command".toList ++ ':' :: " Linear Technology Corporation LTspice XVII".toList from rfl,
    rawParams_kv _ _ _ _ (by decide) (by decide) (by decide) (by decide)]
  rw [rawParams, if_neg (by decide)]
  have : partition ':' "Variables:".toList = ("Variables".toList, []) := by decide
  rw [this]
  simp only
  rw [if_pos (by decide)]
  rfl

theorem lookup_params (w : Writer) (date offset : Str) :
    let d := rawParams (headerLines w date offset) []
    d.lookup "No. Points".toList = some (strip (' ' :: pad12 (showNat (nPoints w)))) ∧
    d.lookup "No. Variables".toList = some (strip (' ' :: showNat w.traces.length)) ∧
    d.lookup "Plotname".toList = some (strip (' ' :: w.plotName.getD "None".toList)) ∧
    d.lookup "Flags".toList = some (strip (' ' :: strFlags w)) ∧
    d.lookup "Command".toList = some "Linear Technology Corporation LTspice XVII".toList := by
  simp only [params_save]
  exact ⟨rfl, rfl, rfl, rfl, rfl⟩

theorem strip_space (s : Str) : strip (' ' :: s) = strip s := by
  unfold strip lstrip
  rw [List.dropWhile_cons, if_pos (by decide)]

theorem parse_points (n : Nat) : parseNat (strip (' ' :: pad12 (showNat n))) = some n := by
  have hs : strip (' ' :: pad12 (showNat n)) = showNat n := by
    rw [strip_space]
    unfold pad12
    apply strip_pad
    · intro c hc; rw [List.eq_of_mem_replicate hc]; decide
    · intro c hc; exact (digit_props c (showNat_digits n c hc)).1
  rw [hs]
  exact parse_show n [] (by simp)

theorem parse_vars (n : Nat) : parseNat (strip (' ' :: showNat n)) = some n := by
  have hs : strip (' ' :: showNat n) = showNat n := by
    rw [strip_space]
    exact strip_pad [] _ (by simp) (fun c hc => (digit_props c (showNat_digits n c hc)).1)
  rw [hs]
  exact parse_show n [] (by simp)

theorem dialect_save (w : Writer) (date offset : Str) :
    dialectOf none (rawParams (headerLines w date offset) []) = some "ltspice".toList := by
  unfold dialectOf
  simp only [(lookup_params w date offset).2.2.2.2]
  decide +kernel

theorem dialect_given (w : Writer) (date offset : Str) (d : Option Str) (hd : d = none ∨ d = some "ltspice".toList) :
    dialectOf d (rawParams (headerLines w date offset) []) = some "ltspice".toList := by
  rcases hd with rfl | rfl
  · exact dialect_save w date offset
  · rfl

theorem flags_strip (w : Writer) (h : Compatible w) :
    contains "complex".toList (lower (strip (' ' :: strFlags w))) = decide (w.numtype = "complex".toList) ∧
    contains "double".toList (lower (strip (' ' :: strFlags w))) = decide (w.numtype = "double".toList) ∧
    contains "fastaccess".toList (lower (strip (' ' :: strFlags w))) = w.fast ∧
    contains "stepped".toList (lower (strip (' ' :: strFlags w))) = w.stepped := by
  rcases oneLine_numtype w h with h | h | h <;>
    (unfold strFlags; rw [h]; cases w.forward <;> cases w.log <;> cases w.stepped <;> cases w.fast <;> decide +kernel)

theorem idx_vars (w : Writer) (date offset : Str) :
    (headerLines w date offset).idxOf? "Variables:".toList = some 8 := by
  have hv : "Variables:".toList = 'V' :: "ariables:".toList := rfl
  have key : ∀ (c : Char) (l : Str), c ≠ 'V' → ((c :: l) == "Variables:".toList) = false := by
    intro c l hc
    rw [hv]
    simp [hc]
  unfold headerLines
  simp only [List.cons_append, List.nil_append]
  rw [show "Title: * spicelib RawWrite".toList = 'T' :: "itle: * spicelib RawWrite".toList from rfl,
    show "Date: ".toList ++ date = 'D' :: ("ate: ".toList ++ date) from rfl,
    show "Plotname: ".toList ++ w.plotName.getD "None".toList = 'P' :: ("lotname: ".toList ++ w.plotName.getD "None".toList) from rfl,
    show "Flags: ".toList ++ strFlags w = 'F' :: ("lags: ".toList ++ strFlags w) from rfl,
    show "No. Variables: ".toList ++ showNat w.traces.length = 'N' :: ("o. Variables: ".toList ++ showNat w.traces.length) from rfl,
    show "No. Points: ".toList ++ pad12 (showNat (nPoints w)) = 'N' :: ("o. Points: ".toList ++ pad12 (showNat (nPoints w))) from rfl,
    show "Offset:   ".toList ++ offset = 'O' :: ("ffset:   ".toList ++ offset) from rfl,
    show "Command: Linear Technology Corporation LTspice XVII".toList = 'C' :: "ommand: Linear Technology Corporation LTspice XVII".toList from rfl]
  simp only [List.idxOf?_cons, key _ _ (by decide : 'T' ≠ 'V'), key _ _ (by decide : 'D' ≠ 'V'), key _ _ (by decide : 'P' ≠ 'V'),
    key _ _ (by decide : 'F' ≠ 'V'), key _ _ (by decide : 'N' ≠ 'V'), key _ _ (by decide : 'O' ≠ 'V'), key _ _ (by decide : 'C' ≠ 'V'),
    beq_self_eq_true]
  rfl

theorem var_split (i : Nat) (t : Trace) (h1 : '\t' ∉ t.name) (h2 : '\t' ∉ t.whattype) :
    splitOn '\t' (lstrip (varLine i t)) = [showNat i, t.name, t.whattype] := by
  have hl : lstrip (varLine i t) = showNat i ++ '\t' :: (t.name ++ '\t' :: t.whattype) := by
    unfold lstrip varLine
    have hd : ∀ c ∈ showNat i, isSpace c = false := fun c hc => (digit_props c (showNat_digits i c hc)).1
    cases hs : showNat i with
    | nil => exact absurd hs (showNat_ne i)
    | cons c cs =>
      have hc : isSpace c = false := hd c (by rw [hs]; simp)
      simp only [List.cons_append, List.append_assoc]
      rw [List.dropWhile_cons, if_pos (by decide), List.dropWhile_cons, if_neg (by simp [hc])]
  rw [hl, splitOn_cons _ _ _ (fun c hc => (digit_props c (showNat_digits i c hc)).2.1),
    splitOn_cons _ _ _ (fun c hc he => h1 (by rw [← he]; exact hc)), splitOn_clean _ _ (fun c hc he => h2 (by rw [← he]; exact hc))]

/-- TraceInfo of the traces as the reader sees them, with the types `num` of the first and `rest` of the others. -/
theorem infos_vars (numerical : NumType) : ∀ (ts : List Trace) (i : Nat),
    (∀ t ∈ ts, '\t' ∉ t.name ∧ '\t' ∉ t.whattype) →
    (∀ (j : Nat) (t : Trace), ts[j]? = some t → t.num = if i + j = 0 ∧ numerical = .real then .double else numerical) →
    traceInfos numerical false i (varLines i ts) = .ok (ts.map (fun t => ⟨t.name, t.num, t.whattype⟩)) := by
  intro ts
  induction ts with
  | nil => intro i _ _; rfl
  | cons t ts ih =>
    intro i h hn
    simp only [varLines, traceInfos]
    rw [var_split i t (h t (by simp)).1 (h t (by simp)).2]
    simp only
    rw [ih (i + 1) (fun t ht => h t (by simp [ht])) (by
      intro j t' hj
      have := hn (j + 1) t' (by simpa using hj)
      rw [this]
      congr 1
      simp)]
    have h0 := hn 0 t rfl
    simp only [Nat.add_zero] at h0
    rw [List.map_cons, h0]
    congr 4
    cases numerical <;> by_cases hi : i = 0 <;> simp [hi]

/-! ### The data section -/

theorem flatten_word : ∀ (ws : List Word) (w j : Nat) (x : Word) (rest : List Byte), (∀ y ∈ ws, y.length = w) → ws[j]? = some x →
    ((ws.flatten ++ rest).drop (j * w)).take w = x := by
  intro ws
  induction ws with
  | nil => intro w j x rest _ h; exact absurd h (by simp)
  | cons a ws ih =>
    intro w j x rest h hj
    have ha := h a (by simp)
    cases j with
    | zero =>
      simp only [List.getElem?_cons_zero, Option.some.injEq] at hj
      subst hj
      rw [Nat.zero_mul, List.drop_zero, List.flatten_cons, List.append_assoc, ← ha, List.take_left]
    | succ j =>
      rw [List.getElem?_cons_succ] at hj
      rw [List.flatten_cons, List.append_assoc, show (j + 1) * w = a.length + j * w by rw [ha]; ring, List.drop_length_add_append]
      exact ih w j x rest (fun y hy => h y (by simp [hy])) hj

theorem flatten_length (ws : List Word) (w : Nat) (h : ∀ y ∈ ws, y.length = w) : ws.flatten.length = ws.length * w := by
  induction ws with
  | nil => simp
  | cons a ws ih =>
    rw [List.flatten_cons, List.length_append, h a (by simp), ih (fun y hy => h y (by simp [hy])), List.length_cons]; ring

theorem fast_drop (n : Nat) : ∀ (ts : List Trace) (i : Nat), (∀ t ∈ ts, t.data.length = n) →
    (∀ t ∈ ts, ∀ x ∈ t.data, x.length = t.num.width) →
    (ts.flatMap (fun t => t.data.flatten)).drop (n * ((ts.map (fun t => t.num.width)).take i).sum)
      = (ts.drop i).flatMap (fun t => t.data.flatten) := by
  intro ts
  induction ts with
  | nil => intro i _ _; simp
  | cons t ts ih =>
    intro i h hw
    cases i with
    | zero => simp
    | succ i =>
      have hl : t.data.flatten.length = n * t.num.width := by
        rw [flatten_length _ _ (hw t (by simp)), h t (by simp)]
      rw [List.map_cons, List.take_succ_cons, List.sum_cons, List.flatMap_cons, List.drop_succ_cons, Nat.mul_add, ← hl,
        List.drop_length_add_append]
      exact ih i (fun t ht => h t (by simp [ht])) (fun t ht => hw t (by simp [ht]))

theorem words_at : ∀ (ws : List Word) (i : Nat) (x : Word), ws[i]? = some x →
    (ws.flatten.drop ((ws.map List.length).take i).sum).take x.length = x := by
  intro ws
  induction ws with
  | nil => intro i x h; exact absurd h (by simp)
  | cons a ws ih =>
    intro i x h
    cases i with
    | zero =>
      simp only [List.getElem?_cons_zero, Option.some.injEq] at h
      subst h
      rw [List.take_zero, List.sum_nil, List.drop_zero, List.flatten_cons, List.take_left]
    | succ i =>
      rw [List.getElem?_cons_succ] at h
      rw [List.map_cons, List.take_succ_cons, List.sum_cons, List.flatten_cons, List.drop_length_add_append]
      exact ih i x h

theorem drop_records {B : Type} (f : Nat → List B) (R : Nat) (n : Nat) (h : ∀ k, k < n → (f k).length = R) :
    ∀ (m j : Nat), j < m → m ≤ n → ∃ rest, ((List.range' (n - m) m).flatMap f).drop (j * R) = f (n - m + j) ++ rest := by
  intro m
  induction m with
  | zero => intro j hj; omega
  | succ m ih =>
    intro j hj hm
    rw [List.range'_succ, List.flatMap_cons]
    cases j with
    | zero => exact ⟨(List.range' (n - (m + 1) + 1) m).flatMap f, by rw [Nat.zero_mul, List.drop_zero]; rfl⟩
    | succ j =>
      obtain ⟨rest, hr⟩ := ih j (by omega) (by omega)
      refine ⟨rest, ?_⟩
      have hl := h (n - (m + 1)) (by omega)
      rw [show (j + 1) * R = (f (n - (m + 1))).length + j * R by rw [hl]; ring, List.drop_length_add_append,
        show n - (m + 1) + 1 = n - m by omega, hr, show n - (m + 1) + (j + 1) = n - m + j by omega]

theorem record_words (ts : List Trace) (j : Nat) : ts.flatMap (fun t => t.data.getD j []) = (ts.map (fun t => t.data.getD j [])).flatten := by
  rw [List.flatMap_def]

/-- The samples found in the data section of a saved file are the samples of the traces. -/
theorem body_samples (w : Writer) (date offset : Str) (rest : List Byte) (hw : WellFormed w date offset) (hc : Compatible w)
    (i : Nat) (t : Trace) (hi : w.traces[i]? = some t) :
    samples w.fast (w.traces.map (fun t => t.num.width)) (nPoints w) (body w ++ rest) i = t.data := by
  have hmem := List.mem_of_getElem? hi
  have hlen := hw.lengths t hmem
  have hwid := hw.widths t hmem
  have hget : (w.traces.map (fun t => t.num.width)).getD i 0 = t.num.width := by
    rw [List.getD_eq_getElem?_getD, List.getElem?_map, hi]; rfl
  unfold samples
  rw [hget]
  apply List.ext_getElem?
  intro j
  rw [List.getElem?_map]
  by_cases hj : j < nPoints w
  · rw [List.getElem?_range hj, Option.map_some]
    have hx : t.data[j]? = some t.data[j] := List.getElem?_eq_getElem (by omega)
    rw [hx]
    congr 1
    have hxl : (t.data[j]).length = t.num.width := hwid _ (List.getElem_mem _)
    by_cases hf : w.fast = true
    · have hnc : w.numtype ≠ "complex".toList := by
        cases hc with
        | real _ _ h => rw [h]; decide
        | double h => rw [h]; decide
        | complex _ h => rw [h] at hf; exact absurd hf (by simp)
      rw [hf, if_pos rfl]
      unfold fastOffset
      rw [hget]
      unfold body
      rw [if_pos ⟨hf, hnc⟩, ← List.drop_drop, List.drop_append, fast_drop (nPoints w) w.traces i hw.lengths hw.widths]
      obtain ⟨hil, hie⟩ := List.getElem?_eq_some_iff.mp hi
      rw [List.drop_eq_getElem_cons hil, hie, List.flatMap_cons, List.append_assoc]
      exact flatten_word t.data t.num.width j _ _ hwid hx
    · have hf' : w.fast = false := by simpa using hf
      rw [hf', if_neg (by simp)]
      unfold pointOffset body
      rw [if_neg (by simp [hf'])]
      have hwidths : ∀ k, k < nPoints w →
          (w.traces.map (fun t => t.data.getD k [])).map List.length = w.traces.map (fun t => t.num.width) := by
        intro k hk
        rw [List.map_map]
        apply List.map_congr_left
        intro t' ht'
        simp only [Function.comp]
        have hl' := hw.lengths t' ht'
        rw [List.getD_eq_getElem?_getD, List.getElem?_eq_getElem (by omega), Option.getD_some]
        exact hw.widths t' ht' _ (List.getElem_mem _)
      have hR : ∀ k, k < nPoints w → (w.traces.flatMap (fun t => t.data.getD k [])).length
          = (w.traces.map (fun t => t.num.width)).sum := by
        intro k hk
        rw [record_words, List.length_flatten, hwidths k hk]
      obtain ⟨more, hmore⟩ := drop_records (fun k => w.traces.flatMap (fun t => t.data.getD k []))
        ((w.traces.map (fun t => t.num.width)).sum) (nPoints w) hR (nPoints w) j hj (le_refl _)
      simp only [Nat.sub_self, Nat.zero_add] at hmore
      rw [← List.range_eq_range'] at hmore
      rw [← List.drop_drop, List.drop_append, hmore]
      have hrec := hwidths j hj
      have hxi : (w.traces.map (fun t => t.data.getD j []))[i]? = some t.data[j] := by
        rw [List.getElem?_map, hi, Option.map_some, List.getD_eq_getElem?_getD, hx, Option.getD_some]
      have hwd := words_at _ i _ hxi
      rw [hrec, hxl] at hwd
      have hle : ((w.traces.map (fun t => t.num.width)).take i).sum + t.num.width ≤ (w.traces.map (fun t => t.num.width)).sum :=
        take_sum_le _ _ _ (by rw [List.getElem?_map, hi]; rfl)
      have hRj := hR j hj
      rw [List.append_assoc, List.drop_append_of_le_length (by omega), List.take_append_of_le_length (by
        rw [List.length_drop]; omega), record_words]
      exact hwd
  · rw [List.getElem?_eq_none (by simp; omega), List.getElem?_eq_none (by omega)]
    rfl

theorem body_length (w : Writer) (date offset : Str) (hw : WellFormed w date offset) :
    (body w).length = nPoints w * (w.traces.map (fun t => t.num.width)).sum := by
  unfold body
  split_ifs
  · have : ∀ ts : List Trace, (∀ t ∈ ts, t.data.length = nPoints w) → (∀ t ∈ ts, ∀ x ∈ t.data, x.length = t.num.width) →
        (ts.flatMap (fun t => t.data.flatten)).length = nPoints w * (ts.map (fun t => t.num.width)).sum := by
      intro ts
      induction ts with
      | nil => intro _ _; simp
      | cons t ts ih =>
        intro h1 h2
        rw [List.flatMap_cons, List.length_append, flatten_length _ _ (h2 t (by simp)), h1 t (by simp),
          ih (fun t ht => h1 t (by simp [ht])) (fun t ht => h2 t (by simp [ht])), List.map_cons, List.sum_cons]
        ring
    exact this _ hw.lengths hw.widths
  · have : ∀ m, m ≤ nPoints w → ((List.range m).flatMap (fun i => w.traces.flatMap (fun t => t.data.getD i []))).length
        = m * (w.traces.map (fun t => t.num.width)).sum := by
      intro m
      induction m with
      | zero => intro _; simp
      | succ m ih =>
        intro hm
        rw [List.range_succ, List.flatMap_append, List.length_append, ih (by omega)]
        simp only [List.flatMap_cons, List.flatMap_nil, List.append_nil]
        rw [record_words, List.length_flatten, List.map_map]
        have : w.traces.map (List.length ∘ fun t => t.data.getD m []) = w.traces.map (fun t => t.num.width) := by
          apply List.map_congr_left
          intro t' ht'
          simp only [Function.comp]
          have hl' := hw.lengths t' ht'
          rw [List.getD_eq_getElem?_getD, List.getElem?_eq_getElem (by omega), Option.getD_some]
          exact hw.widths t' ht' _ (List.getElem_mem _)
        rw [this]; ring
    exact this _ (le_refl _)

/-! ### C24 -/

/-- What the reader should know about the traces of a writer. -/
def infos (w : Writer) : List Info := w.traces.map (fun t => ⟨t.name, t.num, t.whattype⟩)

theorem parse_save (w : Writer) (date offset : Str) (data : List Byte) (d : Option Str) (hd : d = none ∨ d = some "ltspice".toList)
    (hw : WellFormed w date offset) (hc : Compatible w) :
    ∃ p, parseHeader d (headerLines w date offset) data = .ok p ∧ p.nPoints = nPoints w ∧ p.nVariables = w.traces.length ∧
      p.info = infos w ∧ p.fast = w.fast ∧ p.steppedFlag = w.stepped ∧ p.data = data ∧ p.dialect = "ltspice".toList ∧
      p.hasAxis = !(["operating point".toList, "transfer function".toList, "integrated noise".toList].contains
        (lower (strip (w.plotName.getD "None".toList)))) := by
  obtain ⟨l1, l2, l3, l4, _⟩ := lookup_params w date offset
  obtain ⟨f1, f2, f3, f4⟩ := flags_strip w hc
  have hpos := hw.points
  have hv : 0 < w.traces.length := List.length_pos_iff.mpr hw.nonempty
  unfold parseHeader
  simp only [l1, l2, l3, l4, parse_points, parse_vars, dialect_given w date offset d hd, idx_vars, f1, f2, f3, f4]
  rw [if_neg (by omega)]
  have hdrop : ((headerLines w date offset).drop (8 + 1)).dropLast = varLines 0 w.traces := by
    rw [headerLines_eq]
    have : (headPart w date offset ++ varLines 0 w.traces ++ ["Binary:".toList]).drop 9 = varLines 0 w.traces ++ ["Binary:".toList] := rfl
    rw [this, List.dropLast_concat]
  rw [hdrop]
  have htab : ∀ t ∈ w.traces, '\t' ∉ t.name ∧ '\t' ∉ t.whattype :=
    fun t ht => ⟨(hw.nameText t ht).2, (hw.kindText t ht).2⟩
  simp only [strip_space]
  have hfin : ∀ numerical : NumType, 
      (∀ (j : Nat) (t : Trace), w.traces[j]? = some t → t.num = if 0 + j = 0 ∧ numerical = .real then .double else numerical) →
      traceInfos numerical (decide ("ltspice".toList = "qspice".toList)) 0 (varLines 0 w.traces) = .ok (infos w) := by
    intro numerical h
    have : decide ("ltspice".toList = "qspice".toList) = false := by decide
    rw [this]
    exact infos_vars numerical w.traces 0 htab h
  have hall : ∀ (n : NumType), (∀ t ∈ w.traces, t.num = n) → n ≠ .real →
      ∀ (j : Nat) (t : Trace), w.traces[j]? = some t → t.num = if 0 + j = 0 ∧ n = .real then .double else n := by
    intro n h hn j t hj
    rw [if_neg (by simp [hn]), h t (List.mem_of_getElem? hj)]
  cases hc with
  | real t0 ts h hts h0 hr hac =>
    rw [h]
    have e1 : decide ("real".toList = "complex".toList) = false := by decide
    have e2 : decide ("real".toList = "double".toList) = false := by decide
    simp only [e1, e2, Bool.false_eq_true, false_or, if_neg hac, if_false, ne_eq, not_true_eq_false]
    rw [hfin .real (by
      intro j t hj
      rw [hts] at hj
      cases j with
      | zero => simp only [List.getElem?_cons_zero, Option.some.injEq] at hj; subst hj; simp [h0]
      | succ j => rw [List.getElem?_cons_succ] at hj; simp [hr t (List.mem_of_getElem? hj)])]
    exact ⟨_, rfl, rfl, rfl, rfl, rfl, rfl, rfl, rfl, rfl⟩
  | double h hall' hac =>
    rw [h]
    have e1 : decide ("double".toList = "complex".toList) = false := by decide
    simp only [e1, Bool.false_eq_true, false_or, if_neg hac, if_false, if_true, ne_eq, not_true_eq_false, decide_true]
    rw [hfin .double (hall .double hall' (by decide))]
    exact ⟨_, rfl, rfl, rfl, rfl, rfl, rfl, rfl, rfl, rfl⟩
  | complex h hff hall' =>
    rw [h]
    simp only [decide_true, true_or, if_true]
    rw [hfin .complex (hall .complex hall' (by decide))]
    exact ⟨_, rfl, rfl, rfl, rfl, rfl, rfl, rfl, rfl, rfl⟩

/-- C24/C25: reading the header of a file that starts with a saved plot (whatever follows it) gives the number of points, the
traces in order with their names, types and numerical types, and leaves the reader exactly at what follows the plot. -/
theorem C24_header_read_back (w : Writer) (date offset : Str) (rest : List Byte) (enc : Option Enc) (d : Option Str)
    (he : enc = none ∨ enc = some w.enc) (hd : d = none ∨ d = some "ltspice".toList)
    (hw : WellFormed w date offset) (hc : Compatible w) :
    ∃ p, readPlot enc d (save w date offset ++ rest) = .ok (some p, rest) ∧
      p.nPoints = nPoints w ∧ p.nVariables = w.traces.length ∧
      p.info = w.traces.map (fun t => ⟨t.name, t.num, t.whattype⟩) ∧ p.fast = w.fast ∧ p.dialect = "ltspice".toList ∧
      p.data = body w ++ rest := by
  obtain ⟨p, hp, p1, p2, p3, p4, p5, p6, p7, _⟩ := parse_save w date offset (body w ++ rest) d hd hw hc
  refine ⟨p, ?_, p1, p2, p3, p4, p7, p6⟩
  unfold save
  rw [List.append_assoc]
  have hdet := detect_save w date offset (body w ++ rest)
  have hlen20 : 20 ≤ (encodeLines w.enc (headerLines w date offset)).length := by
    refine le_trans ?_ (encodeLines_length _ _)
    unfold headerLines
    simp only [List.cons_append, List.map_cons, List.sum_cons]
    have : "Title: * spicelib RawWrite".toList.length = 26 := by decide
    omega
  have hbl := body_length w date offset hw
  have hmain : (if (encodeLines w.enc (headerLines w date offset) ++ (body w ++ rest)).length < 20 then Except.error Err.spiceRead
      else match readHeader w.enc ((encodeLines w.enc (headerLines w date offset) ++ (body w ++ rest)).length + 1)
          (encodeLines w.enc (headerLines w date offset) ++ (body w ++ rest)) [] [] with
      | (_, none, rest) => .ok (none, rest)
      | (header, some kind, rest) =>
        if kind = "binary:".toList then
          match parseHeader d header rest with
          | .error err => .error err
          | .ok p => .ok (some p, rest.drop (p.nPoints * recordSize p.info))
        else .error .value) = .ok (some p, rest) := by
    rw [if_neg (by rw [List.length_append]; omega),
      readHeader_save w date offset (body w ++ rest) hw hc _ (by rw [List.length_append]; omega)]
    simp only [if_true, hp]
    congr 2
    rw [p1, p3]
    have : recordSize (infos w) = (w.traces.map (fun t => t.num.width)).sum := by
      unfold recordSize infos; rw [List.map_map]; rfl
    rw [this, ← hbl, List.drop_left]
  unfold readPlot
  rcases he with rfl | rfl
  · simp only [hdet]
    exact hmain
  · simp only
    exact hmain

variable {V : Type} [DecidableEq V]

/-- C24: round trip. A file saved by RawWrite, read by RawRead with any list of names, gives back for every requested trace
(and for the axis) exactly the samples that were written; all the names requested can be read. -/
theorem C24_round_trip (val : NumType → Word → V) (w : Writer) (date offset : Str) (rest : List Byte) (names : List Str)
    (hw : WellFormed w date offset) (hc : Compatible w) :
    ∃ p s, readPlot none none (save w date offset ++ rest) = .ok (some p, rest) ∧
      readTraceData val p none St.init names = .ok s ∧
      p.info.map Info.name = w.traces.map Trace.name ∧
      ∀ t ∈ w.traces, t.name ∈ names →
        ∃ l, s.reads.lookup t.name = some l ∧ l.data = t.data ∧ l.num = t.num := by
  obtain ⟨p, hp, p1, p2, p3, p4, _, p6⟩ := C24_header_read_back w date offset rest none none (Or.inl rfl) (Or.inl rfl) hw hc
  have hnames : p.info.map Info.name = w.traces.map Trace.name := by rw [p3, List.map_map]; rfl
  have hnd : (p.info.map Info.name).Nodup := by rw [hnames]; exact hw.names
  have hrs : recordSize p.info = (w.traces.map (fun t => t.num.width)).sum := by
    rw [p3]; unfold recordSize; rw [List.map_map]; rfl
  have hlen : p.nPoints * recordSize p.info ≤ p.data.length := by
    rw [p1, p6, hrs, ← body_length w date offset hw, List.length_append]; omega
  obtain ⟨s, hs⟩ := C25_read_succeeds val p none St.init names hnd hlen (Or.inl rfl)
  refine ⟨p, s, hp, hs, hnames, ?_⟩
  intro t ht hn
  obtain ⟨i, hi⟩ := List.mem_iff_getElem?.mp ht
  have hpi : p.info[i]? = some ⟨t.name, t.num, t.whattype⟩ := by rw [p3, List.getElem?_map, hi]; rfl
  have hsamp : traceSamples p i = t.data := by
    unfold traceSamples
    rw [p4, p1, p6, p3, List.map_map]
    exact body_samples w date offset rest hw hc i t hi
  have hex := C25_read_exact val p none St.init s names hnd hs i _ hpi
  simp only [hsamp] at hex
  split_ifs at hex with h1
  · obtain ⟨o, ho, _⟩ := hex
    exact ⟨_, ho, rfl, rfl⟩
  · exact ⟨_, hex, rfl, rfl⟩

/-- C24/C25: several plots one after the other in a file are all found, each at its own offset. -/
theorem C24_many_plots (date offset : Str) : ∀ (ws : List Writer) (fuel : Nat) (enc : Enc) (enc? : Option Enc) (d : Option Str),
    (∀ w ∈ ws, WellFormed w date offset ∧ Compatible w ∧ w.enc = enc) → (enc? = none ∨ enc? = some enc) →
    (d = none ∨ d = some "ltspice".toList) → ws.length < fuel →
    ∃ ps, readPlots fuel enc? d (ws.flatMap (fun w => save w date offset)) = .ok ps ∧
      List.Forall₂ (fun (p : Plot) (w : Writer) => p.nPoints = nPoints w ∧
        p.info = w.traces.map (fun t => ⟨t.name, t.num, t.whattype⟩) ∧
        ∀ (i : Nat) (t : Trace), w.traces[i]? = some t → traceSamples p i = t.data) ps ws := by
  intro ws
  induction ws with
  | nil =>
    intro fuel enc enc? d _ _ _ hf
    cases fuel with
    | zero => exact absurd hf (by simp)
    | succ fuel => exact ⟨[], by simp [readPlots], List.Forall₂.nil⟩
  | cons w ws ih =>
    intro fuel enc enc? d h he hd hf
    cases fuel with
    | zero => exact absurd hf (by simp)
    | succ fuel =>
      obtain ⟨hw, hc, hwe⟩ := h w (by simp)
      rw [List.flatMap_cons]
      generalize hrest : ws.flatMap (fun w => save w date offset) = rest at *
      obtain ⟨p, hp, p1, p2, p3, p4, p7, p6⟩ := C24_header_read_back w date offset rest (some w.enc) d (Or.inr rfl) hd hw hc
      obtain ⟨ps, hps, hall⟩ := ih fuel enc (some enc) (some "ltspice".toList) (fun w hw => h w (by simp [hw])) (Or.inr rfl) (Or.inr rfl)
        (by simp only [List.length_cons] at hf; omega)
      have hlen20 : 20 < (save w date offset ++ rest).length := by
        have h1 : 20 < (encodeLines w.enc (headerLines w date offset)).length := by
          refine lt_of_lt_of_le ?_ (encodeLines_length _ _)
          unfold headerLines
          simp only [List.cons_append, List.map_cons, List.sum_cons]
          have : "Title: * spicelib RawWrite".toList.length = 26 := by decide
          omega
        unfold save
        rw [List.length_append, List.length_append]
        omega
      refine ⟨p :: ps, ?_, ?_⟩
      · have hds : detectEncoding (save w date offset ++ rest) = Except.ok (ε := Err) w.enc := by
          unfold save
          rw [List.append_assoc]
          exact detect_save w date offset _
        simp only [readPlots]
        rw [if_neg (by omega)]
        rcases he with rfl | rfl
        · simp only [hds, hp]
          rw [p7, hwe, hps]
        · rw [hwe] at hp
          simp only [hp]
          rw [p7, hps]
      · refine List.Forall₂.cons ⟨p1, p3, ?_⟩ hall
        intro i t hi
        unfold traceSamples
        rw [p4, p1, p6, p3, List.map_map]
        exact body_samples w date offset rest hw hc i t hi

/-- Calling add_trace for each trace in turn. -/
def addAll (w : Writer) : List Trace → Except Err Writer
  | [] => .ok w
  | t :: ts => match addTrace w t with
    | .error e => .error e
    | .ok w => addAll w ts

/-- C24: what add_trace accepts is written in the order it was given, and all of it has the length of the first trace. -/
theorem C24_added_traces (w : Writer) (ts : List Trace) (w' : Writer) (hw : ∀ t ∈ w.traces, t.data.length = nPoints w)
    (h : addAll w ts = .ok w') : w'.traces = w.traces ++ ts ∧ (∀ t ∈ w'.traces, t.data.length = nPoints w') ∧
      w'.enc = w.enc ∧ w'.fast = w.fast := by
  induction ts generalizing w with
  | nil => injection h with h; subst h; exact ⟨by simp, hw, rfl, rfl⟩
  | cons t ts ih =>
    unfold addAll at h
    cases ha : addTrace w t with
    | error e => rw [ha] at h; cases h
    | ok w1 =>
      rw [ha] at h
      have key : w1.traces = w.traces ++ [t] ∧ (∀ t ∈ w1.traces, t.data.length = nPoints w1) ∧ w1.enc = w.enc ∧ w1.fast = w.fast := by
        unfold addTrace at ha
        cases htr : w.traces with
        | nil =>
          rw [htr] at ha
          simp only at ha
          cases hf : firstTrace w t with
          | error e => rw [hf] at ha; cases ha
          | ok pf =>
            rw [hf] at ha
            cases ha
            refine ⟨rfl, ?_, rfl, rfl⟩
            intro t' ht'
            simp only [List.mem_singleton] at ht'
            subst ht'
            rfl
        | cons t0 tr =>
          rw [htr] at ha
          simp only at ha
          by_cases hne : t0.data.length ≠ t.data.length
          · rw [if_pos hne] at ha; cases ha
          · rw [if_neg hne] at ha
            cases ha
            refine ⟨by simp, ?_, rfl, rfl⟩
            have hn : nPoints w = t0.data.length := by unfold nPoints; rw [htr]
            intro t' ht'
            show t'.data.length = t0.data.length
            simp only [List.cons_append, List.mem_cons, List.mem_append, List.not_mem_nil, or_false] at ht'
            rcases ht' with rfl | h' | rfl
            · rfl
            · rw [← hn]; exact hw t' (by rw [htr]; exact List.mem_cons_of_mem _ h')
            · omega
      obtain ⟨k1, k2, k3, k4⟩ := key
      obtain ⟨i1, i2, i3, i4⟩ := ih w1 k2 h
      exact ⟨by rw [i1, k1]; simp, i2, i3.trans k3, i4.trans k4⟩

/-- C24: a trace whose length differs from that of the first one is refused (IndexError). -/
theorem C24_other_length_refused (w : Writer) (t0 t : Trace) (ts : List Trace) (h : w.traces = t0 :: ts)
    (hl : t.data.length ≠ t0.data.length) : addTrace w t = .error .index := by
  unfold addTrace
  rw [h]
  simp only
  rw [if_pos (Ne.symm hl)]

/-! ### Concrete cases -/

def wd (b : UInt8) (n : Nat) : Word := List.replicate n b

/-- A transient analysis with two points. -/
def tranWriter (fast : Bool) (enc : Enc) : Writer :=
  ⟨"real".toList, false, false, false, fast, some "Transient Analysis".toList,
    [⟨"time".toList, "time".toList, .double, [wd 1 8, wd 2 8]⟩, ⟨"V(a)".toList, "voltage".toList, .real, [wd 3 4, wd 4 4]⟩], enc⟩

theorem oneLine_dec (e : Enc) (s : Str) (h : s.all (fun c => c.toNat < 128 && c ≠ '\n' && c ≠ '\r') = true) : OneLine e s :=
  oneLine_ascii e s h

theorem tranWriter_ok (fast : Bool) (enc : Enc) : WellFormed (tranWriter fast enc) "today".toList "0.0".toList ∧ Compatible (tranWriter fast enc) := by
  refine ⟨⟨by simp [tranWriter], by show 0 < 2; decide, ?_, ?_, by show ["time".toList, "V(a)".toList].Nodup; decide +kernel, ?_, ?_, ?_, ?_, ?_⟩, ?_⟩
  · intro t ht; simp only [tranWriter, List.mem_cons, List.not_mem_nil, or_false] at ht; rcases ht with rfl | rfl <;> rfl
  · intro t ht; simp only [tranWriter, List.mem_cons, List.not_mem_nil, or_false] at ht; rcases ht with rfl | rfl <;> decide
  · intro t ht; simp only [tranWriter, List.mem_cons, List.not_mem_nil, or_false] at ht
    rcases ht with rfl | rfl <;> exact ⟨oneLine_ascii _ _ (by decide), by decide⟩
  · intro t ht; simp only [tranWriter, List.mem_cons, List.not_mem_nil, or_false] at ht
    rcases ht with rfl | rfl <;> exact ⟨oneLine_ascii _ _ (by decide), by decide⟩
  · exact oneLine_ascii _ "Transient Analysis".toList (by decide)
  · exact oneLine_ascii _ _ (by decide)
  · exact oneLine_ascii _ _ (by decide)
  · exact Compatible.real _ _ rfl rfl rfl (by intro t ht; simp at ht; subst ht; rfl)
      (by show lower (strip "Transient Analysis".toList) ≠ _; decide)

example : ∃ w1 w2, addTrace (newWriter none true "auto".toList .utf16) ⟨"time".toList, "time".toList, .double, [wd 1 8, wd 2 8]⟩ = .ok w1 ∧
    addTrace w1 ⟨"V(a)".toList, "voltage".toList, .real, [wd 3 4, wd 4 4]⟩ = .ok w2 ∧ w2 = tranWriter true .utf16 := by
  refine ⟨_, _, rfl, rfl, ?_⟩
  decide +kernel

/-- Saving, reading the file and loading the given traces; then the samples found under `name`. -/
def readBack (w : Writer) (names : List Str) (name : Str) : Except Err (Option (List Word)) :=
  match readPlot none none (save w "d".toList "0".toList) with
  | .error e => .error e
  | .ok (none, _) => .ok none
  | .ok (some p, _) =>
    match readTraceData rawVal p none St.init names with
    | .error e => .error e
    | .ok s => .ok ((s.reads.lookup name).map Loaded.data)

example : readBack (tranWriter false .utf8) ["V(a)".toList] "V(a)".toList = .ok (some [wd 3 4, wd 4 4]) := by decide +kernel

def acWriter : Writer :=
  ⟨"complex".toList, false, false, false, true, some "AC Analysis".toList,
    [⟨"frequency".toList, "frequency".toList, .complex, [wd 1 16, wd 2 16]⟩, ⟨"V(a)".toList, "voltage".toList, .complex, [wd 3 16, wd 4 16]⟩], .utf16⟩

/-- C24 limit: an AC analysis written with the default settings (fast access on) is not read back: the data is interleaved
but the header announces fast access. Two points of two complex traces come back mixed. -/
theorem C24_complex_fastaccess_mixed :
    acWriter.traces[1]?.map Trace.data = some [wd 3 16, wd 4 16] ∧
    readBack acWriter ["V(a)".toList] "V(a)".toList = .ok (some [wd 2 16, wd 4 16]) := by
  decide +kernel

def dcWriter : Writer :=
  ⟨"real".toList, false, false, false, true, some "DC transfer characteristic".toList,
    [⟨"v1".toList, "voltage".toList, .real, [wd 1 4, wd 2 4]⟩], .utf16⟩

/-- C24 limit: a DC transfer characteristic whose first trace is given as ordinary floats is written in single precision, but
read as if the first trace were in double precision: reading fails. -/
theorem C24_single_precision_axis_unreadable :
    traceKind "v1".toList "voltage".toList none .float = .ok ("voltage".toList, .real) ∧
    readBack dcWriter ["v1".toList] "v1".toList = .error .spiceRead := by
  decide +kernel

/-- C24 limit: the first trace of an AC analysis cannot be added to a writer without a plot name (TypeError). -/
theorem C24_ac_needs_plot_name (fast : Bool) (enc : Enc) (data : List Word) :
    addTrace (newWriter none fast "auto".toList enc) ⟨"frequency".toList, "frequency".toList, .complex, data⟩ = .error .type := by
  rfl

end Props.RawWrite
