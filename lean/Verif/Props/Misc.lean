import Verif.Model.Measurement
import Verif.Model.Instr
import Verif.Model.Print
import Verif.Lemmas.Safe
import Mathlib.Tactic.Ring
import Mathlib.Tactic.IntervalCases

/-!
# Measurement headers, timing and printing (C150, C151, C152)
-/

namespace Verif

open Out

/-! ### Measurement headers (C150) -/

theorem mesRead_write_same (h : MesHeader) (o w : ℕ) (v : BitVec w) (hw : o + w ≤ 96) : mesRead (mesWrite h o w v) o w = v := by
  apply BitVec.eq_of_getLsbD_eq
  intro i hi
  simp only [mesRead, mesWrite, BitVec.getLsbD_extractLsb', BitVec.getLsbD_or, BitVec.getLsbD_and, BitVec.getLsbD_not, BitVec.getLsbD_shiftLeft,
    BitVec.getLsbD_setWidth, BitVec.getLsbD_allOnes]
  have e : o + i - o = i := by omega
  simp [e, hi, show o + i < 96 by omega, show i < 96 by omega]

theorem mesRead_write_other (h : MesHeader) (o w : ℕ) (v : BitVec w) (o' w' : ℕ) (hd : o' + w' ≤ o ∨ o + w ≤ o') :
    mesRead (mesWrite h o w v) o' w' = mesRead h o' w' := by
  apply BitVec.eq_of_getLsbD_eq
  intro i hi
  simp only [mesRead, mesWrite, BitVec.getLsbD_extractLsb', BitVec.getLsbD_or, BitVec.getLsbD_and, BitVec.getLsbD_not, BitVec.getLsbD_shiftLeft,
    BitVec.getLsbD_setWidth, BitVec.getLsbD_allOnes]
  rcases hd with hd | hd
  · have hlt : o' + i < o := by omega
    by_cases h96 : o' + i < 96
    · simp [hi, hlt, h96]
    · have hf : h.getLsbD (o' + i) = false := BitVec.getLsbD_of_ge _ _ (by omega)
      simp [hf, h96]
  · have hge : ¬ o' + i < o := by omega
    have hw : ¬ o' + i - o < w := by omega
    have hv : v.getLsbD (o' + i - o) = false := BitVec.getLsbD_of_ge _ _ (by omega)
    by_cases h96 : o' + i < 96
    · simp [hi, hge, hw, hv, h96]
    · have hf : h.getLsbD (o' + i) = false := BitVec.getLsbD_of_ge _ _ (by omega)
      simp [hf, h96]

/-- C150. The members fill the header exactly, and each of the three words exactly. -/
theorem mes_header_size :
    (MesMember.decl.map MesMember.width).sum = 96 ∧ MesMember.siUnit.off = 32 ∧ MesMember.len.off = 64 ∧ MesMember.dataFormat.off = 16 ∧
      ∀ m, m ∈ MesMember.decl := by
  refine ⟨by decide, by decide, by decide, by decide, fun m => ?_⟩
  cases m <;> decide

theorem mes_inside (m : MesMember) : m.off + m.width ≤ 96 := by
  cases m <;> decide

theorem mes_apart (m n : MesMember) (h : m ≠ n) : n.off + n.width ≤ m.off ∨ m.off + m.width ≤ n.off := by
  revert h
  cases m <;> cases n <;> decide

/-- C150. A member holds what was stored in it, whatever was in the header before. -/
theorem mes_get_set_same (h : MesHeader) (m : MesMember) (v : BitVec m.width) : mesGet (mesSet h m v) m = v :=
  mesRead_write_same h _ _ v (mes_inside m)

/-- C150. Storing a member does not change any other member. -/
theorem mes_get_set_other (h : MesHeader) (m n : MesMember) (hne : m ≠ n) (v : BitVec m.width) : mesGet (mesSet h m v) n = mesGet h n :=
  mesRead_write_other h _ _ v _ _ (mes_apart m n hne)

/-- C150. The members determine the header: there are no other bits. -/
theorem mes_ext (h k : MesHeader) (e : ∀ m, mesGet h m = mesGet k m) : h = k := by
  apply BitVec.eq_of_getLsbD_eq
  intro i hi
  have key : ∀ m : MesMember, m.off ≤ i → i < m.off + m.width → h.getLsbD i = k.getLsbD i := by
    intro m h1 h2
    have := congrArg (fun b => b.getLsbD (i - m.off)) (e m)
    simp only [mesGet, mesRead, BitVec.getLsbD_extractLsb'] at this
    rw [show m.off + (i - m.off) = i by omega] at this
    simpa [show i - m.off < m.width by omega] using this
  by_cases c1 : i < 8
  · exact key .baseType (by simp [MesMember.off, MesMember.decl]) (by simpa [MesMember.off, MesMember.decl, MesMember.width] using c1)
  obtain ⟨m, hm⟩ : ∃ m : MesMember, m.off ≤ i ∧ i < m.off + m.width := by
    interval_cases i
    all_goals first
      | exact ⟨.baseType, by decide⟩
      | exact ⟨.extType, by decide⟩
      | exact ⟨.dataFormat, by decide⟩
      | exact ⟨.encoding, by decide⟩
      | exact ⟨.compression, by decide⟩
      | exact ⟨.timestamp, by decide⟩
      | exact ⟨.flagsRsvd, by decide⟩
      | exact ⟨.siUnit, by decide⟩
      | exact ⟨.ctype, by decide⟩
      | exact ⟨.scaleFactor, by decide⟩
      | exact ⟨.len, by decide⟩
      | exact ⟨.fragment, by decide⟩
      | exact ⟨.srclenRsvd, by decide⟩
      | exact ⟨.samples, by decide⟩
      | exact ⟨.sourceid, by decide⟩
  exact key m hm.1 hm.2

theorem read_toNat (h : MesHeader) (o w : ℕ) : (mesRead h o w).toNat = h.toNat / 2 ^ o % 2 ^ w := by
  simp [mesRead, BitVec.extractLsb'_toNat, Nat.shiftRight_eq_div_pow]

/-- C150. The 32-bit words in terms of the members, with the positions of the bit-fields. -/
theorem mes_words (h : MesHeader) :
    (mesFilterBits h).toNat = (mesGet h .baseType).toNat + 2 ^ 8 * (mesGet h .extType).toNat + 2 ^ 16 * (mesFlagsBits h).toNat ∧
    (mesFlagsBits h).toNat = (mesGet h .dataFormat).toNat + 2 ^ 3 * (mesGet h .encoding).toNat + 2 ^ 7 * (mesGet h .compression).toNat +
      2 ^ 10 * (mesGet h .timestamp).toNat + 2 ^ 13 * (mesGet h .flagsRsvd).toNat ∧
    (mesUnitBits h).toNat = (mesGet h .siUnit).toNat + 2 ^ 16 * (mesGet h .ctype).toNat + 2 ^ 24 * (mesGet h .scaleFactor).toNat ∧
    (mesSrclenBits h).toNat = (mesGet h .len).toNat + 2 ^ 16 * (mesGet h .fragment).toNat + 2 ^ 18 * (mesGet h .srclenRsvd).toNat +
      2 ^ 20 * (mesGet h .samples).toNat + 2 ^ 24 * (mesGet h .sourceid).toNat := by
  simp only [mesFilterBits, mesFlagsBits, mesUnitBits, mesSrclenBits, mesGet, read_toNat]
  generalize h.toNat = n
  have o1 : MesMember.baseType.off = 0 := by decide
  have o2 : MesMember.extType.off = 8 := by decide
  have o3 : MesMember.dataFormat.off = 16 := by decide
  have o4 : MesMember.encoding.off = 19 := by decide
  have o5 : MesMember.compression.off = 23 := by decide
  have o6 : MesMember.timestamp.off = 26 := by decide
  have o7 : MesMember.flagsRsvd.off = 29 := by decide
  have o8 : MesMember.siUnit.off = 32 := by decide
  have o9 : MesMember.ctype.off = 48 := by decide
  have o10 : MesMember.scaleFactor.off = 56 := by decide
  have o11 : MesMember.len.off = 64 := by decide
  have o12 : MesMember.fragment.off = 80 := by decide
  have o13 : MesMember.srclenRsvd.off = 82 := by decide
  have o14 : MesMember.samples.off = 84 := by decide
  have o15 : MesMember.sourceid.off = 88 := by decide
  rw [o1, o2, o3, o4, o5, o6, o7, o8, o9, o10, o11, o12, o13, o14, o15]
  simp only [MesMember.width]
  norm_num
  omega

/-- The names and the values of an enumeration are pairwise different, and the values are below the bound. -/
def GoodEnum (l : List (String × ℕ)) (w : ℕ) : Prop := (l.map Prod.fst).Nodup ∧ (l.map Prod.snd).Nodup ∧ ∀ p ∈ l, p.2 < 2 ^ w

/-- C150. Every enumerator fits the member it is meant for, and different enumerators have different values. -/
theorem mes_enums :
    GoodEnum mesTypes MesMember.baseType.width ∧ GoodEnum mesExtColor MesMember.extType.width ∧ GoodEnum mesExtLight MesMember.extType.width ∧
      GoodEnum mesExtTemp MesMember.extType.width ∧ GoodEnum mesFormats MesMember.dataFormat.width ∧
      GoodEnum mesEncodings MesMember.encoding.width ∧ GoodEnum mesCompressions MesMember.compression.width ∧
      GoodEnum mesTimestamps MesMember.timestamp.width ∧ GoodEnum mesUnits MesMember.siUnit.width ∧
      GoodEnum mesCtypes MesMember.ctype.width ∧ GoodEnum mesFragments MesMember.fragment.width ∧
      (mesScales.map Prod.snd).Nodup ∧ ∀ p ∈ mesScales, -2 ^ (MesMember.scaleFactor.width - 1) ≤ p.2 ∧ p.2 < 2 ^ (MesMember.scaleFactor.width - 1) := by
  unfold GoodEnum
  refine ⟨?_, ?_, ?_, ?_, ?_, ?_, ?_, ?_, ?_, ?_, ?_, ?_, ?_⟩
  all_goals decide +kernel

/-- C150. Combined units are grouped by the measurement type they belong to: the high byte of a combined unit is the value of that type. -/
theorem mes_units_grouped :
    ∀ p ∈ mesUnits, 0x100 ≤ p.2 → p.2 < 0x8000 → p.2 / 256 ∈ mesTypes.map Prod.snd := by
  decide +kernel

/-- A header for a temperature in °C as a 32-bit float, scaled by 10^-3. -/
example : ∃ h : MesHeader, mesGet h .baseType = 0x24 ∧ mesGet h .siUnit = 0x22 ∧ mesGet h .ctype = 0x10 ∧ mesGet h .scaleFactor = 0xFD ∧
    (mesUnitBits h).toNat = 0xFD100022 := by
  refine ⟨mesSet (mesSet (mesSet (mesSet 0 .baseType 0x24) .siUnit 0x22) .ctype 0x10) .scaleFactor 0xFD, ?_⟩
  decide

/-! ### Timing (C151) -/

/-- C151 (partial: counters that do not pass their end). The number of cycles is the difference of the counters. -/
theorem instr_cycles_partial (conv : BitVec 32 → BitVec 32) (t e : BitVec 32) (h : t ≤ e) :
    instrStop conv (instrStart t) e = conv (e - t) ∧ (e - t).toNat = e.toNat - t.toNat := by
  constructor
  · unfold instrStop instrCycles instrStart
    rw [if_neg (by simpa using h)]
  · have h' : t.toNat ≤ e.toNat := h
    rw [BitVec.toNat_sub_of_le h]

/-- C151. Whenever the counter passes its end between start and stop, the result is one cycle short of the elapsed time. -/
theorem instr_cycles_wrap_wrong (t e : BitVec 32) (h : e < t) :
    instrCycles t e = e - t - 1 ∧ (instrCycles t e).toNat = 2 ^ 32 - t.toNat + e.toNat - 1 ∧ instrCycles t e ≠ e - t := by
  have hlt : e.toNat < t.toNat := h
  have ht : t.toNat < 2 ^ 32 := t.isLt
  have e1 : (instrCycles t e).toNat = 2 ^ 32 - t.toNat + e.toNat - 1 := by
    unfold instrCycles
    rw [if_pos h, BitVec.toNat_add, BitVec.toNat_sub]
    simp only [show (0xFFFFFFFF#32).toNat = 2 ^ 32 - 1 from rfl]
    omega
  have e2 : (e - t).toNat = 2 ^ 32 - t.toNat + e.toNat := by
    rw [BitVec.toNat_sub]
    omega
  refine ⟨?_, e1, ?_⟩
  · apply BitVec.eq_of_toNat_eq
    rw [e1, BitVec.toNat_sub, e2]
    simp only [show (1 : BitVec 32).toNat = 1 from rfl]
    omega
  · intro hc
    rw [hc, e2] at e1
    omega

/-- Two cycles from 2^32 - 1 to 1 are reported as one, and no time at all is reported from 2^32 - 1 to 0. -/
example : instrCycles 0xFFFFFFFF#32 1#32 = 1#32 ∧ instrCycles 0xFFFFFFFF#32 0#32 = 0#32 ∧ (1#32 - 0xFFFFFFFF#32) = 2#32 := by decide

/-! ### Printing (C152) -/

set_option linter.unusedSectionVars false

variable {R : Type} [CReal R]

/-- The text of a row of numbers: each followed by a space. -/
def printRow (xs : List R) : List (Tok R) := xs.flatMap fun x => [.num x, .text " "]

/-- C152. `zsl_vec_print` prints the elements in their order, each once, and then an empty line; it reads nothing else. -/
theorem vec_print_correct (v : Vec R) (h : v.WF) : vecPrint v = ok (0, printRow v.vals ++ [.text "\n\n"]) := by
  have hl := h
  unfold Vec.WF at hl
  have := forN_sat (n := v.sz) (f := fun g (o : List (Tok R)) => do
    let x ← rd v.data g
    return o ++ [Tok.num x, Tok.text " "]) (s := []) (fun i o => o = printRow (v.data.take i)) (by simp [printRow]) fun i hi o ho => by
      rw [rd_lt (by omega), ok_bind]
      refine satp ?_
      subst ho
      rw [List.take_succ_eq_append_getElem (by omega)]
      simp only [printRow, List.flatMap_append, List.flatMap_cons, List.flatMap_nil, List.append_nil]
  obtain ⟨o, h1, h2⟩ := this
  unfold vecPrint
  rw [h1, ok_bind, h2]
  rfl

/-- C152. `zsl_mtx_print` prints the matrix row by row, one line per row, each element once, and then an empty line; the message about an
element that cannot be read is never printed. -/
theorem mtx_print_correct (x0 : R) (m : Mtx R) (h : m.WF) :
    mtxPrint x0 m = ok (0, ((List.range m.rows).flatMap fun i => printRow ((m.data.drop (i * m.cols)).take m.cols) ++ [.text "\n"]) ++
      [.text "\n"]) := by
  have hl := h
  unfold Mtx.WF at hl
  suffices hs : (mtxPrint x0 m).sat fun p => p = (0, ((List.range m.rows).flatMap fun i =>
      printRow ((m.data.drop (i * m.cols)).take m.cols) ++ [.text "\n"]) ++ [.text "\n"]) by
    obtain ⟨p, h1, h2⟩ := hs
    rw [h1, h2]
  unfold mtxPrint
  refine Out.sat.bind (forRet_sat
    (fun k o => o = (List.range k).flatMap fun i => printRow ((m.data.drop (i * m.cols)).take m.cols) ++ [Tok.text "\n"]) (fun _ => False)
    (by simp) fun i hi o ho => ?_) ?_
  · have hr : i * m.cols + m.cols ≤ m.rows * m.cols := by
      calc i * m.cols + m.cols = (i + 1) * m.cols := by ring
        _ ≤ _ := Nat.mul_le_mul_right _ hi
    refine Out.sat.bind (forRet_sat (fun j o' => o' = o ++ printRow ((m.data.drop (i * m.cols)).take j)) (fun _ => False) (by simp [printRow])
      fun j hj o' ho => ?_) ?_
    · unfold mtxGet
      rw [if_neg (by omega), rd_lt (by omega)]
      simp only [ok_bind, pure_eq]
      rw [if_neg (by simp)]
      refine (sat_ok _ _).2 ?_
      dsimp only
      rw [ho, List.take_succ_eq_append_getElem (by simp; omega)]
      simp [printRow]
    · rintro (o' | _) h'
      · refine satp ?_
        dsimp only at h' ⊢
        rw [h', ho, List.range_succ, List.flatMap_append]
        simp
      · exact h'.elim
  · rintro (o | _) h'
    · dsimp only at h' ⊢
      exact satp (by rw [h'])
    · exact h'.elim

/-- C152. `zsl_quat_print` and `zsl_eul_print` print their components in order. -/
theorem quat_eul_print (q : Quat R) (e : Euler R) :
    (quatPrint q).1 = 0 ∧ ((quatPrint q).2.filterMap fun t => match t with | .num16 x => some x | _ => none) = [q.r, q.i, q.j, q.k] ∧
      (eulPrint e).1 = 0 ∧ ((eulPrint e).2.filterMap fun t => match t with | .num x => some x | _ => none) = [e.x, e.y, e.z] :=
  ⟨rfl, rfl, rfl, rfl⟩

/-- C152. What surrounds the numbers: with the numbers written by any function `f`, a quaternion reads `r + i i + j j + k k` on a line of its
own, and a triple of angles is in parentheses, separated by commas and followed by an empty line. -/
theorem quat_eul_print_text (q : Quat R) (e : Euler R) (f : R → String) :
    (quatPrint q).2.map (fun t => match t with | .num16 x => f x | .num x => f x | .text s => s) =
        [f q.r, " + ", f q.i, " i + ", f q.j, " j + ", f q.k, " k\n"] ∧
      (eulPrint e).2.map (fun t => match t with | .num16 x => f x | .num x => f x | .text s => s) =
        ["(", f e.x, ", ", f e.y, ", ", f e.z, ")\n\n"] :=
  ⟨rfl, rfl⟩

/-- A 2 by 2 matrix in a buffer of five cells. -/
example (a b c d e x0 : R) : mtxPrint x0 (⟨2, 2, [a, b, c, d, e]⟩ : Mtx R) =
    ok (0, [.num a, .text " ", .num b, .text " ", .text "\n", .num c, .text " ", .num d, .text " ", .text "\n", .text "\n"]) := by
  rw [mtx_print_correct x0 _ (by simp [Mtx.WF])]
  simp [List.range_succ, printRow]

end Verif
