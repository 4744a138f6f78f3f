import Verif.Model.BitText
import Verif.Proof.BitMatrix
import Verif.Proof.VecText

/-!
# Bits, bit vectors and bit matrices as text: proofs
-/

namespace Spffl.BText
open Res Scan BV F2P

/-! ### Unsigned integers -/

theorem _root_.Spffl.Scan.IntText.digits {cs t : List Char} {n : ℤ} (h : IntText cs n t) :
    cs.dropWhile isSpace ≠ [] ∧ takeDigits (takeSign (cs.dropWhile isSpace)).2 0 = (n.natAbs, t) ∧
      t.length < (takeSign (cs.dropWhile isSpace)).2.length ∧
      n = if (takeSign (cs.dropWhile isSpace)).1 then -(n.natAbs : ℤ) else n.natAbs := by
  obtain ⟨ws, ds, hw, hn, hd, ht, h | h | h⟩ := h
  · obtain ⟨rfl, rfl⟩ := h
    have e : (ws ++ ds ++ t).dropWhile isSpace = ds ++ t := by
      rw [List.append_assoc]
      refine dropWhile_space hw fun c hc => ?_
      rw [List.head?_append_of_ne_nil _ hn] at hc
      exact dig_not_space (hd c (List.mem_of_mem_head? hc))
    have := List.length_pos_iff.2 hn
    rw [e, takeSign_dig hd hn, takeDigits_eq ds t hd ht]
    refine ⟨by simp [hn], by simp, by simp; omega, by simp⟩
  · obtain ⟨rfl, rfl⟩ := h
    have e : (ws ++ '+' :: ds ++ t).dropWhile isSpace = '+' :: (ds ++ t) := by
      rw [List.append_assoc]
      refine dropWhile_space hw fun c hc => ?_
      simp only [List.cons_append, List.head?_cons, Option.mem_def, Option.some.injEq] at hc
      subst hc; rfl
    have hs : takeSign ('+' :: (ds ++ t)) = (false, ds ++ t) := by simp [takeSign]
    have := List.length_pos_iff.2 hn
    rw [e, hs, takeDigits_eq ds t hd ht]
    refine ⟨by simp, by simp, by simp; omega, by simp⟩
  · obtain ⟨rfl, rfl⟩ := h
    have e : (ws ++ '-' :: ds ++ t).dropWhile isSpace = '-' :: (ds ++ t) := by
      rw [List.append_assoc]
      refine dropWhile_space hw fun c hc => ?_
      simp only [List.cons_append, List.head?_cons, Option.mem_def, Option.some.injEq] at hc
      subst hc; rfl
    have hs : takeSign ('-' :: (ds ++ t)) = (true, ds ++ t) := by simp [takeSign]
    have := List.length_pos_iff.2 hn
    rw [e, hs, takeDigits_eq ds t hd ht]
    refine ⟨by simp, by simp, by simp; omega, by simp⟩

theorem extractUInt_eq {v0 : ℕ} {cs : List Char} (h : cs.dropWhile isSpace ≠ []) :
    extractUInt v0 (.ofChars cs) = getUInt (cs.dropWhile isSpace) := by
  unfold extractUInt
  rw [if_pos (show (IStream.ofChars cs).good = true from rfl)]
  show (match cs.dropWhile isSpace with | [] => _ | cs => getUInt cs) = _
  cases hd : cs.dropWhile isSpace with
  | nil => exact absurd hd h
  | cons c r => rfl

theorem extractUInt_text {cs tail : List Char} {n : ℤ} {v0 : ℕ} (h : IntText cs n tail) :
    (n.natAbs < 2 ^ 32 → ∃ v, extractUInt v0 (.ofChars cs) = (v, ⟨tail, tail.isEmpty, false⟩) ∧ ((v : ℤ) % 2 = n % 2)) ∧
    (2 ^ 32 ≤ n.natAbs → (extractUInt v0 (.ofChars cs)).2 = ⟨tail, tail.isEmpty, true⟩) := by
  obtain ⟨h1, h2, h3, h4⟩ := h.digits
  rw [extractUInt_eq h1]
  unfold getUInt
  dsimp only
  rw [h2]
  dsimp only
  rw [if_neg (by simpa using h3)]
  constructor
  · intro hs
    rw [if_neg (by omega)]
    refine ⟨_, rfl, ?_⟩
    split at h4
    · rename_i hb; rw [hb]
      simp only [if_true]
      omega
    · rename_i hb; rw [if_neg hb]
      omega
  · intro hs
    rw [if_pos hs]

theorem extractUInt_none {cs : List Char} {v0 : ℕ} (h : ¬ ∃ n tail, IntText cs n tail) :
    (extractUInt v0 (.ofChars cs)).2.fail = true := by
  by_cases hd : cs.dropWhile isSpace = []
  · unfold extractUInt
    rw [if_pos (show (IStream.ofChars cs).good = true from rfl)]
    show (match cs.dropWhile isSpace with | [] => _ | cs => getUInt cs).2.fail = true
    rw [hd]
  · rw [extractUInt_eq hd]
    obtain ⟨_, hn⟩ := extractInt_none (v0 := 0) h
    rcases hn with ⟨hn, _⟩ | ⟨_, _, hn, _⟩
    · exact absurd hn hd
    · rw [extractInt_good rfl hd] at hn
      unfold getInt at hn
      dsimp only at hn
      unfold getUInt
      dsimp only
      rw [if_pos (by rw [hn]; simp)]

/-! ### Bit vectors -/

/-- The elements of a vector. -/
def vecOf (n : ℕ) (xs : List ℤ) : Fin n → ZMod 2 := fun i => ((xs.getD i 0 : ℤ) : ZMod 2)

/-- `v` holds the parities of `xs`, and zeros behind them. -/
structure VR (v : BV) (xs : List ℤ) : Prop where
  nn : v.null = false
  nb : v.num_bits = xs.length
  nw : v.num_words = nwords xs.length
  len : nwords xs.length ≤ v.words.length
  bit : ∀ k, BV.bit v.words k = decide (xs.getD k 0 % 2 = 1)

theorem b2_parity (x : ℤ) : b2 (decide (x % 2 = 1)) = ((x : ℤ) : ZMod 2) := by
  rcases Int.emod_two_eq_zero_or_one x with h | h
  · rw [h]
    have : ((x : ℤ) : ZMod 2) = 0 := (ZMod.intCast_zmod_eq_zero_iff_dvd x 2).2 (Int.dvd_of_emod_eq_zero h)
    rw [this]; rfl
  · rw [h]
    have h1 : (((x - 1 : ℤ)) : ZMod 2) = 0 := (ZMod.intCast_zmod_eq_zero_iff_dvd _ 2).2 (by omega)
    have : ((x : ℤ) : ZMod 2) = 1 := by
      push_cast at h1
      exact sub_eq_zero.1 h1
    rw [this]; rfl

theorem VR.rep {v : BV} {xs : List ℤ} (h : VR v xs) : BV.Rep v (vecOf xs.length xs) where
  nn := h.nn
  nb := h.nb
  nw := h.nw
  len := h.len
  bit := fun i => by rw [h.bit, b2_parity]; rfl
  pad := fun k hk _ => by rw [h.bit, List.getD_eq_default _ _ hk]; rfl

theorem zeros_ok {u : BitVec 64} : forUp 0 8 (List.replicate 8 u) (fun i ws => wr ws i 0#64) = ok (List.replicate 8 0#64) := by
  simp [forUp, loopUp, wr, List.replicate]

theorem moreWords_ok {u : BitVec 64} {ws : List (BitVec 64)} {N : ℕ} (h : N ≤ ws.length) :
    ∃ r, moreWords u ws N = ok r ∧ r.length = ws.length + 8 ∧ ∀ k, BV.bit r k = if k < 64 * N then BV.bit ws k else false := by
  unfold moreWords
  dsimp only
  obtain ⟨t, h1, h2, h3⟩ := copyWords_ok (dst := List.replicate (ws.length + 8) u) (src := ws) (N := N) (by simp; omega) h
  rw [h1, ok_bind]
  have hl : t.length = ws.length + 8 := by simpa using h2
  obtain ⟨r, e1, e2, e3⟩ : (forUp N (ws.length + 8) t fun i t => wr t i 0#64).Ok fun s =>
      s.length = t.length ∧ ∀ j, g s j = if N ≤ j ∧ j < ws.length + 8 then 0#64 else g t j := by
    refine forUp_ok (fun i s => s.length = t.length ∧ ∀ j, g s j = if N ≤ j ∧ j < i then 0#64 else g t j) (by omega)
      ⟨rfl, fun j => by rw [if_neg (by omega)]⟩ fun i s hi hi' ⟨hs, hg⟩ => ?_
    rw [wr_ok (by omega), Ok_ok]
    refine ⟨by simpa using hs, fun j => ?_⟩
    rw [g_set (by omega), hg]
    split_ifs <;> first | (exfalso; omega) | rfl
  refine ⟨r, e1, by omega, fun k => ?_⟩
  unfold BV.bit
  rw [e3]
  split_ifs with ha hb hb
  · exfalso; omega
  · simp
  · exact h3 k hb
  · by_cases hk : k / 64 < r.length
    · exfalso; omega
    · have : g t (k / 64) = 0#64 := by unfold g; exact List.getD_eq_default _ _ (by omega)
      rw [this]; simp

/-- Integers in range, one after the other, up to the end of the text.  Between two of them there need not be white space if
the second has a sign. -/
inductive IntSeq : List Char → List ℤ → Prop
  | last {cs n} : IntText cs n [] → InInt n → IntSeq cs [n]
  | more {cs n tail ns} : IntText cs n tail → InInt n → IntSeq tail ns → IntSeq cs (n :: ns)

theorem _root_.Spffl.Scan.IntText.length_lt {cs tail : List Char} {n : ℤ} (h : IntText cs n tail) : tail.length < cs.length := by
  obtain ⟨ws, ds, _, hn, _, _, h | h | h⟩ := h <;>
  · have := List.length_pos_iff.2 hn
    rw [h.1]; simp; omega

theorem IntSeq.ne {cs : List Char} {ns : List ℤ} (h : IntSeq cs ns) : cs ≠ [] := by
  rintro rfl
  cases h with
  | last h => have := h.length_lt; simp at this
  | more h => have := h.length_lt; simp at this

theorem IntSeq.length_le {cs : List Char} {ns : List ℤ} (h : IntSeq cs ns) : ns.length ≤ cs.length := by
  induction h with
  | last h => have := h.length_lt; simp at this ⊢; omega
  | more h _ _ ih => have := h.length_lt; simp; omega

/-- Such a text ends with a digit. -/
theorem IntSeq.last_dig {cs : List Char} {ns : List ℤ} (h : IntSeq cs ns) : ∃ u e, cs = u ++ [e] ∧ isDig e = true := by
  induction h with
  | last h _ =>
    obtain ⟨ws, ds, _, hn, hd, _, h⟩ := h
    obtain ⟨ds', e, rfl⟩ : ∃ ds' e, ds = ds' ++ [e] := ⟨ds.dropLast, ds.getLast hn, (List.dropLast_append_getLast hn).symm⟩
    rcases h with h | h | h
    · exact ⟨ws ++ ds', e, by rw [h.1]; simp, hd e (by simp)⟩
    · exact ⟨ws ++ '+' :: ds', e, by rw [h.1]; simp, hd e (by simp)⟩
    · exact ⟨ws ++ '-' :: ds', e, by rw [h.1]; simp, hd e (by simp)⟩
  | more h _ _ ih =>
    obtain ⟨u, e, rfl, he⟩ := ih
    obtain ⟨ws, ds, _, _, _, _, h⟩ := h
    rcases h with h | h | h
    · exact ⟨ws ++ ds ++ u, e, by rw [h.1]; simp, he⟩
    · exact ⟨ws ++ '+' :: ds ++ u, e, by rw [h.1]; simp, he⟩
    · exact ⟨ws ++ '-' :: ds ++ u, e, by rw [h.1]; simp, he⟩

theorem IntSeq.uncons {cs tail : List Char} {n : ℤ} {ns : List ℤ} (h : IntSeq cs ns) (ht : IntText cs n tail) :
    InInt n ∧ ((tail = [] ∧ ns = [n]) ∨ ∃ ms, IntSeq tail ms ∧ ns = n :: ms) := by
  cases h with
  | last h hi =>
    obtain ⟨rfl, rfl⟩ := h.unique ht
    exact ⟨hi, .inl ⟨rfl, rfl⟩⟩
  | more h hi hs =>
    obtain ⟨rfl, rfl⟩ := h.unique ht
    exact ⟨hi, .inr ⟨_, hs, rfl⟩⟩

theorem IntSeq.unique {cs : List Char} {ns ms : List ℤ} (h : IntSeq cs ns) (h' : IntSeq cs ms) : ns = ms := by
  induction h generalizing ms with
  | last h _ =>
    rcases (h'.uncons h).2 with ⟨_, rfl⟩ | ⟨_, hs, _⟩
    · rfl
    · exact absurd rfl hs.ne
  | more h _ hs ih =>
    rcases (h'.uncons h).2 with ⟨rfl, _⟩ | ⟨_, hs', rfl⟩
    · exact absurd rfl hs.ne
    · rw [ih hs']

/-- One more element. -/
theorem VR.push {v : BV} {xs : List ℤ} (h : VR v xs) {ws : List (BitVec 64)} (hl : v.num_words < ws.length)
    (hb : ∀ k, BV.bit ws k = BV.bit v.words k) (x : ℤ) :
    ∃ r, (if x % 2 = 1 then setBit ws v.num_bits else ok ws) = ok r ∧
      VR ⟨false, r, (xs.length + 1 + 63) / 64, xs.length + 1⟩ (xs ++ [x]) := by
  have hi : v.num_bits / 64 < ws.length := by
    rw [h.nw] at hl; rw [h.nb]; unfold nwords at hl; omega
  have hlen : nwords (xs ++ [x]).length ≤ ws.length := by
    rw [h.nw] at hl
    unfold nwords at *
    simp; omega
  have hget : ∀ k, (xs ++ [x]).getD k 0 = if k = xs.length then x else xs.getD k 0 := by
    intro k
    split_ifs with hk
    · subst hk; simp [List.getD]
    · rcases Nat.lt_or_gt_of_ne hk with hk | hk
      · simp [List.getD, List.getElem?_append_left hk]
      · rw [List.getD_eq_default _ _ (by simp; omega), List.getD_eq_default _ _ (by omega)]
  split_ifs with hx
  · obtain ⟨r, e1, e2, e3⟩ := setBit_ok hi
    refine ⟨r, e1, rfl, by simp, by simp [nwords], by simpa [e2] using hlen, fun k => ?_⟩
    show BV.bit r k = _
    rw [e3, hget, hb, h.bit, h.nb]
    split_ifs with hk
    · simp [hx]
    · rfl
  · refine ⟨ws, rfl, rfl, by simp, by simp [nwords], by simpa using hlen, fun k => ?_⟩
    show BV.bit ws k = _
    rw [hget, hb, h.bit]
    split_ifs with hk
    · subst hk
      rw [List.getD_eq_default _ _ (le_refl _)]
      simp [hx]
    · rfl

theorem bvLoop_spec {u : BitVec 64} : ∀ (n : ℕ) (cs : List Char) (v : BV) (xs : List ℤ), VR v xs → cs.length < n →
    xs.length + cs.length ≤ 2147483647 → ∃ w s, bvLoop u n v (.ofChars cs) = ok (w, s) ∧
      ((∃ ys, IntSeq cs ys ∧ VR w (xs ++ ys) ∧ s = ⟨[], true, false⟩) ∨
        ((¬ ∃ ys, IntSeq cs ys) ∧ s.fail = true ∧ ∃ ys, VR w (xs ++ ys))) := by
  intro n
  induction n with
  | zero => intro cs v xs _ h; exact absurd h (by omega)
  | succ n ih =>
    intro cs v xs hv hn hmax
    unfold bvLoop
    rw [if_neg (show ¬ (IStream.ofChars cs).eof = true by simp [IStream.ofChars])]
    -- the words have room
    obtain ⟨ws, hws, hl, hb⟩ : ∃ ws, (if v.words.length ≤ v.num_words then moreWords u v.words v.num_words else ok v.words) = ok ws ∧
        v.num_words < ws.length ∧ ∀ k, BV.bit ws k = BV.bit v.words k := by
      split_ifs with hle
      · obtain ⟨r, e1, e2, e3⟩ := moreWords_ok (u := u) (ws := v.words) (N := v.num_words) (by rw [hv.nw]; exact hv.len)
        refine ⟨r, e1, by have h1 := hv.len; have h2 := hv.nw; omega, fun k => ?_⟩
        rw [e3]
        split_ifs with hk
        · rfl
        · rw [hv.bit, List.getD_eq_default _ _ (by have := nwords_le xs.length; rw [hv.nw] at hk; omega)]
          rfl
      · exact ⟨_, rfl, by omega, fun _ => rfl⟩
    rw [hws, ok_bind]
    have hkeep : VR { v with words := ws } (xs ++ []) :=
      ⟨hv.nn, by simpa using hv.nb, by simpa using hv.nw, by have := hv.nw; simp; omega, fun k => by simpa [hb] using hv.bit k⟩
    dsimp only
    by_cases ht : ∃ m tail, IntText cs m tail
    · obtain ⟨m, tail, ht⟩ := ht
      obtain ⟨hin, hout⟩ := extractInt_text (v0 := 0) ht
      by_cases hi : InInt m
      · rw [show (extractInt 0 (.ofChars cs)) = _ from hin hi]
        dsimp only
        rw [if_neg (by simp)]
        obtain ⟨r, hr, hvr⟩ := hv.push hl hb m
        have hlt := ht.length_lt
        rw [hr, ok_bind, hv.nb, chk_ok (by unfold InInt; omega), ok_bind]
        have hnat : ((xs.length : ℤ) + 1).toNat = xs.length + 1 := by omega
        rw [hnat]
        by_cases hte : tail = []
        · subst hte
          obtain ⟨n, rfl⟩ : ∃ k, n = k + 1 := ⟨n - 1, by omega⟩
          rw [bvLoop, if_pos (by rfl)]
          exact ⟨_, _, rfl, .inl ⟨[m], .last ht hi, hvr, rfl⟩⟩
        · rw [show tail.isEmpty = false by simpa using hte]
          obtain ⟨w, s, e, hc⟩ := ih tail _ _ hvr (by omega) (by simp; omega)
          refine ⟨w, s, e, ?_⟩
          rcases hc with ⟨ys, h1, h2, h3⟩ | ⟨h1, h2, ys, h3⟩
          · exact .inl ⟨m :: ys, .more ht hi h1, by simpa using h2, h3⟩
          · refine .inr ⟨?_, h2, m :: ys, by simpa using h3⟩
            rintro ⟨zs, hz⟩
            rcases (hz.uncons ht).2 with ⟨h, _⟩ | ⟨ms, h, _⟩
            · exact hte h
            · exact h1 ⟨ms, h⟩
      · rw [if_pos (hout hi).1]
        refine ⟨_, _, rfl, .inr ⟨?_, (hout hi).1, [], hkeep⟩⟩
        rintro ⟨zs, hz⟩
        exact hi (hz.uncons ht).1
    · have := (extractInt_none (v0 := 0) ht).1
      rw [if_pos this]
      refine ⟨_, _, rfl, .inr ⟨?_, this, [], hkeep⟩⟩
      rintro ⟨zs, hz⟩
      cases hz with
      | last h => exact ht ⟨_, _, h⟩
      | more h => exact ht ⟨_, _, h⟩

theorem readBV_spec {u : BitVec 64} {cs : List Char} (hmax : cs.length ≤ 2147483647) : ∃ w s, readBV u cs = ok (w, s) ∧
    ((∃ ys, IntSeq cs ys ∧ VR w ys ∧ s = ⟨[], true, false⟩) ∨
      ((¬ ∃ ys, IntSeq cs ys) ∧ s.fail = true ∧ ∃ ys, VR w ys)) := by
  unfold readBV
  rw [zeros_ok, ok_bind]
  obtain ⟨w, s, h1, h2⟩ := bvLoop_spec (u := u) (cs.length + 1) cs ⟨false, List.replicate 8 0#64, 0, 0⟩ []
    ⟨rfl, rfl, rfl, by simp [nwords], fun k => by rw [bit_zeros]; rfl⟩ (by omega) (by simpa using hmax)
  exact ⟨w, s, h1, by simpa using h2⟩

/-! ### Printing -/

/-- The digits of a vector. -/
def bitChars {n : ℕ} (x : Fin n → ZMod 2) : List Char := (List.ofFn x).map fun b => if b = 1 then '1' else '0'

theorem showBit_eq (b : Bool) : showBit b = [if b2 b = 1 then '1' else '0'] := by cases b <;> rfl

theorem bitChars_length {n : ℕ} (x : Fin n → ZMod 2) : (bitChars x).length = n := by simp [bitChars]

theorem bitChars_take {n : ℕ} (x : Fin n → ZMod 2) {i : ℕ} (hi : i < n) :
    (bitChars x).take (i + 1) = (bitChars x).take i ++ [if x ⟨i, hi⟩ = 1 then '1' else '0'] := by
  rw [List.take_succ]
  congr 1
  simp [bitChars, hi]

theorem showBV_ok {n : ℕ} {v : BV} {x : Fin n → ZMod 2} (h : BV.Rep v x) :
    showBV v = ok (List.intersperse ' ' (bitChars x)) := by
  unfold showBV
  rw [h.nb]
  obtain ⟨r, h1, h2⟩ := forUp_ok (body := fun i os => do
      let b ← BV.getBit v.words i
      let os := os ++ showBit b
      ok (if i + 1 < n then os ++ [' '] else os))
    (fun i os => os = List.intersperse ' ' ((bitChars x).take i) ++ if 0 < i ∧ i < n then [' '] else []) (Nat.zero_le n) (s := [])
    (by simp) (fun i os _ hi hos => by
      obtain ⟨b, e1, e2⟩ := getBit_rep h hi
      rw [e1, ok_bind, Ok_ok, bitChars_take x hi, showBit_eq, e2]
      have hlen : ((bitChars x).take i).length = i := by simp [bitChars_length]; omega
      rcases Nat.eq_zero_or_pos i with rfl | hp
      · subst hos
        simp
        split_ifs <;> simp
      · have hne : (bitChars x).take i ≠ [] := by intro h0; rw [h0] at hlen; simp at hlen; omega
        rw [if_pos ⟨hp, hi⟩] at hos
        have hsn : ∀ (l : List Char) (c : Char), l ≠ [] → List.intersperse ' ' (l ++ [c]) = List.intersperse ' ' l ++ [' ', c] := by
          intro l c hl
          induction l with
          | nil => exact absurd rfl hl
          | cons a l ih =>
            cases l with
            | nil => rfl
            | cons b l => simp only [List.cons_append, List.intersperse_cons₂] at ih ⊢; rw [ih (by simp)]
        rw [hsn _ _ hne, hos]
        split_ifs <;> first | (exfalso; omega) | simp)
  rw [h1, h2, List.take_of_length_le (by rw [bitChars_length])]
  rw [if_neg (by omega), List.append_nil]

theorem sqzout_ok {n : ℕ} {v : BV} {x : Fin n → ZMod 2} (h : BV.Rep v x) : sqzout v = ok (bitChars x) := by
  unfold sqzout
  rw [h.nb]
  obtain ⟨r, h1, h2⟩ := forUp_ok (body := fun i os => do
      let b ← BV.getBit v.words i
      ok (os ++ showBit b)) (fun i os => os = (bitChars x).take i) (Nat.zero_le n) (s := []) (by simp) (fun i os _ hi hos => by
      obtain ⟨b, e1, e2⟩ := getBit_rep h hi
      rw [e1, ok_bind, Ok_ok, bitChars_take x hi, showBit_eq, e2, hos])
  rw [h1, h2, List.take_of_length_le (by rw [bitChars_length])]

theorem crout_ok {n : ℕ} {v : BV} {x : Fin n → ZMod 2} (h : BV.Rep v x) :
    crout v = ok ((bitChars x).flatMap fun c => [c, '\n']) := by
  unfold crout
  rw [h.nb]
  obtain ⟨r, h1, h2⟩ := forUp_ok (body := fun i os => do
      let b ← BV.getBit v.words i
      ok (os ++ showBit b ++ ['\n'])) (fun i os => os = ((bitChars x).take i).flatMap fun c => [c, '\n']) (Nat.zero_le n) (s := [])
      (by simp) (fun i os _ hi hos => by
      obtain ⟨b, e1, e2⟩ := getBit_rep h hi
      rw [e1, ok_bind, Ok_ok, bitChars_take x hi, showBit_eq, e2, hos]
      simp)
  rw [h1, h2, List.take_of_length_le (by rw [bitChars_length])]

/-- What is printed is a sequence of integers. -/
theorem intSeq_intersperse : ∀ (bs : List (ZMod 2)), bs ≠ [] → ∀ {ws : List Char}, (∀ c ∈ ws, isSpace c = true) →
    IntSeq (ws ++ List.intersperse ' ' (bs.map fun b => if b = 1 then '1' else '0')) (bs.map fun b => if b = 1 then 1 else 0) := by
  have one : ∀ (b : ZMod 2) {ws tail : List Char}, (∀ c ∈ ws, isSpace c = true) → (∀ c ∈ tail.head?, isDig c = false) →
      IntText (ws ++ (if b = 1 then '1' else '0') :: tail) (if b = 1 then 1 else 0) tail := by
    intro b ws tail hw ht
    refine ⟨ws, [if b = 1 then '1' else '0'], hw, by simp, ?_, ht, .inl ⟨by simp, ?_⟩⟩
    · split_ifs <;> simp <;> decide
    · split_ifs <;> rfl
  have inn : ∀ b : ZMod 2, InInt (if b = 1 then 1 else 0) := by intro b; unfold InInt; split_ifs <;> decide
  intro bs
  induction bs with
  | nil => intro h; exact absurd rfl h
  | cons b bs ih =>
    intro _ ws hw
    cases bs with
    | nil => exact .last (one b hw (by simp)) (inn b)
    | cons c bs =>
      simp only [List.map_cons, List.intersperse_cons₂]
      refine .more (one b hw (tail := ' ' :: _) (by simp; decide)) (inn b) ?_
      have := ih (by simp) (ws := [' ']) (by simp; decide)
      simpa using this

theorem vecOf_digits {n : ℕ} (x : Fin n → ZMod 2) : vecOf n ((List.ofFn x).map fun b => if b = 1 then 1 else 0) = x := by
  funext i
  simp only [vecOf, List.getD]
  rcases zmod2_cases (x i) with h | h <;> simp [h]

end Spffl.BText
