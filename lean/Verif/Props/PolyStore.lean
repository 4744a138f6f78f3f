/-
Property C116: the storage of the polynomial classes.
-/
import Verif.Proof.PolySpec
import Verif.Proof.CoefInst
import Verif.Proof.CMod
import Verif.Proof.IntRat

namespace Spffl.Props
open Res Polynomial
namespace PolyStores
open Spffl.PolyStore

variable {U : Prop} {α R : Type} [CommRing R] {O : CoefOps α} {inv : α} {rep : α → R → Prop} {ord : R → R → Prop}

/-- The object numbered `i` holds the polynomial `f`: it exists, its array has not been deleted, its degree is that of `f`, and the array has the
coefficients of `f`, lowest first. -/
def Holds (rep : α → R → Prop) (w : World α) (i : ℕ) (f : R[X]) : Prop :=
  ∃ o cs, w.objs[i]? = some (some o) ∧ w.heap[o.coeffs]? = some (some cs) ∧ o.degree = f.natDegree ∧
    ∀ j, j ≤ f.natDegree → ∃ c, cs[j]? = some c ∧ rep c (f.coeff j)

theorem holds_of {w : World α} {S : Vals α} {V : Polys R} {L : ℕ} (h : Inv w S L) (hV : VRep rep S V) {i : ℕ} {f : R[X]}
    (hi : V[i]? = some (some (some f))) : Holds rep w i f := by
  obtain ⟨P, h1, -, h3⟩ := hV.poly hi
  obtain ⟨o, h4, h5⟩ := h.obj i P h1
  refine ⟨o, P.coeffs, h4, h5.at_, h5.deg.trans h3.deg.symm, fun j hj => ?_⟩
  exact h3.co j (by rw [← h3.deg]; omega)

/-- Two objects never share an array. -/
def Apart (w : World α) : Prop :=
  ∀ (i j : ℕ) (o p : Obj), w.objs[i]? = some (some o) → w.objs[j]? = some (some p) → o.coeffs = p.coeffs → i = j

/-- C116: every program that creates, copies, assigns, adds, subtracts, multiplies, divides, changes and destroys polynomial objects stays
within its arrays, never uses a deleted one, and each object holds the polynomial it is meant to hold; the arrays not deleted are those of the
objects and one for every sum, difference, product and proper division so far.  Assigning an object to itself, negating a non-constant
polynomial and dividing a polynomial by one of larger degree with a result in the dividend are not allowed; a division with a result in the
dividend is allowed otherwise, as is one with a result in the divisor. -/
theorem C116_polynomials (H : CoefRef U O rep ord) {ops : List (Op α)} {V : Polys R} {n : ℕ} (hr : SRun rep [] ops V n) :
    (run O inv ops ⟨[], []⟩).Sat U fun w =>
      (∀ i f, V[i]? = some (some (some f)) → Holds rep w i f) ∧ Apart w ∧
      (∀ i : ℕ, V[i]? = some none → w.objs[i]? = some none) ∧
      w.heap.countP Option.isSome = V.countP Option.isSome + n := by
  refine ((run_sim ops inv_empty).sat (vrun_ok (inv := inv) H hr 0 vrep_empty)).mono fun w ⟨r, ⟨hV, hn⟩, h⟩ => ⟨fun i f hi => holds_of h hV hi, h.inj, fun i hi => ?_, ?_⟩
  · obtain ⟨a, h1, h2⟩ := hV.look hi
    cases a with
    | none => exact h.non i h1
    | some P => exact h2.elim
  · have := h.live
    rw [hV.count, hn, zero_add] at this
    exact this

/-- C116, the polynomials over the integers modulo `m`. -/
theorem C116_fp {m : ℕ} (hm2 : 2 ≤ m) (hm : m ≤ 46341) {inv : IntMod} {ops : List (Op IntMod)} {V : Polys (ZMod m)} {n : ℕ}
    (hr : SRun (IntMod.Rep m) [] ops V n) : (run IntMod.cops inv ops ⟨[], []⟩).Ok fun w =>
      (∀ i f, V[i]? = some (some (some f)) → Holds (IntMod.Rep m) w i f) ∧ Apart w ∧
      (∀ i : ℕ, V[i]? = some none → w.objs[i]? = some none) ∧
      w.heap.countP Option.isSome = V.countP Option.isSome + n :=
  sat_false.1 (C116_polynomials (IntMod.cops_ref hm2 hm) hr)

/-- C116, the polynomials over residues of bit polynomials. -/
theorem C116_f2n {m : (ZMod 2)[X]} (hm0 : m ≠ 0) {inv : F2Mod} {ops : List (Op F2Mod)} {V : Polys ((ZMod 2)[X] ⧸ Ideal.span {m})} {n : ℕ}
    (hr : SRun (F2Mod.Rep m) [] ops V n) : (run F2Mod.cops inv ops ⟨[], []⟩).Ok fun w =>
      (∀ i f, V[i]? = some (some (some f)) → Holds (F2Mod.Rep m) w i f) ∧ Apart w ∧
      (∀ i : ℕ, V[i]? = some none → w.objs[i]? = some none) ∧
      w.heap.countP Option.isSome = V.countP Option.isSome + n :=
  sat_false.1 (C116_polynomials (F2Mod.cops_ref hm0) hr)

/-- C116, the polynomials over the rational numbers, as long as no 32-bit number overflows. -/
theorem C116_q_partial {inv : IntRat} {ops : List (Op IntRat)} {V : Polys ℚ} {n : ℕ}
    (hr : SRun IntRat.Rep [] ops V n) : (run IntRat.cops inv ops ⟨[], []⟩).Sat True fun w =>
      (∀ i f, V[i]? = some (some (some f)) → Holds IntRat.Rep w i f) ∧ Apart w ∧
      (∀ i : ℕ, V[i]? = some none → w.objs[i]? = some none) ∧
      w.heap.countP Option.isSome = V.countP Option.isSome + n :=
  C116_polynomials IntRat.cops_ref hr

/-- C116, the polynomials over residues of polynomials modulo `p`, unless a unary minus of such a residue reads past its array. -/
theorem C116_fpn_partial {p : ℕ} [Fact p.Prime] {M : (ZMod p)[X]} (hb : p ≤ 46341) (hM : M ≠ 0) {inv : CMod IntMod} {ops : List (Op (CMod IntMod))}
    {V : Polys ((ZMod p)[X] ⧸ Ideal.span {M})} {n : ℕ} (hr : SRun (CMod.Rep (IntMod.Rep p) M) [] ops V n) :
    (run FpMod.cops inv ops ⟨[], []⟩).Sat True fun w =>
      (∀ i f, V[i]? = some (some (some f)) → Holds (CMod.Rep (IntMod.Rep p) M) w i f) ∧ Apart w ∧
      (∀ i : ℕ, V[i]? = some none → w.objs[i]? = some none) ∧
      w.heap.countP Option.isSome = V.countP Option.isSome + n :=
  C116_polynomials (FpMod.cops_ref hb hM) hr

/-- C116: whatever the coefficients do, and whatever the program, self-assignments and shared arguments included: the program on arrays has the
outcome of the program on values, exceptions and undefined behaviour included, and then the objects are the values. -/
theorem C116_same_outcome (ops : List (Op α)) :
    Sim (run O inv ops ⟨[], []⟩) (vrun O inv ops [] 0) fun w r =>
      (∀ (i : ℕ) (P : CPoly α), r.1[i]? = some (some P) → ∃ o, w.objs[i]? = some (some o) ∧ o.degree = P.degree ∧
        w.heap[o.coeffs]? = some (some P.coeffs)) ∧ Apart w ∧
      w.heap.countP Option.isSome = r.1.countP Option.isSome + r.2 :=
  (run_sim ops inv_empty).mono fun w r h => ⟨fun i P hi => by
    obtain ⟨o, h1, h2⟩ := h.obj i P hi
    exact ⟨o, h1, h2.deg, h2.at_⟩, h.inj, h.live⟩

/-- C116: once all objects have been destroyed, the arrays lost by the operators are still there. -/
theorem C116_violated_leak (H : CoefRef False O rep ord) {ops : List (Op α)} {V : Polys R} {n : ℕ} (hr : SRun rep [] ops V n)
    (hall : ∀ v ∈ V, v = none) : (run O inv ops ⟨[], []⟩).Ok fun w => w.heap.countP Option.isSome = n := by
  refine (sat_false.1 (C116_polynomials H hr)).mono fun w h => ?_
  rw [h.2.2.2, List.countP_eq_zero.2 (fun v hv => by rw [hall v hv]; simp), zero_add]

/-- C116: an object assigned to itself loses its coefficients: its array is a new one that has never been written to. -/
theorem C116_violated_self_assign {ops : List (Op α)} {w : World α} (hw : run O inv ops ⟨[], []⟩ = ok w) {i : ℕ} {o : Obj}
    (hi : w.objs[i]? = some (some o)) : (step O inv w (.assign i i)).Ok fun w' => ∃ o', w'.objs[i]? = some (some o') ∧ o'.degree = o.degree ∧
      w'.heap[o'.coeffs]? = some (some (List.replicate (o.degree + 1) O.dflt)) := by
  have hs := run_sim (O := O) (inv := inv) ops inv_empty
  rw [hw] at hs
  obtain ⟨r, hr, h⟩ : ∃ r, vrun O inv ops [] 0 = ok r ∧ Inv w r.1 r.2 := by
    cases hv : vrun O inv ops [] 0 <;> rw [hv] at hs
    · exact ⟨_, rfl, hs⟩
    all_goals exact hs.elim
  obtain ⟨P, h1, h2⟩ := h.back hi
  obtain ⟨r', e, U⟩ := assign_self (O := O) h2
  have ho : w.obj i = ok o := by unfold World.obj; rw [hi]
  unfold step World.assignObj
  simp only [ho, ok_bind, decide_true, e]
  rw [Ok_ok]
  refine ⟨r'.2, List.getElem?_set_self (List.getElem?_eq_some_iff.1 hi).1, by rw [U.has.deg, h2.deg]; rfl, ?_⟩
  have := U.has.at_
  rw [show (lost O P).coeffs = List.replicate (o.degree + 1) O.dflt by rw [h2.deg]; rfl] at this
  exact this

theorem run_short (H : CoefRef False O rep ord) {ops : List (Op α)} {V : Polys R} {n : ℕ} (hr : SRun rep [] ops V n) {i j k l : ℕ}
    {f g : R[X]} {u v : Option R[X]} (hi : V[i]? = some (some (some f))) (hj : V[j]? = some (some (some g))) (hk : V[k]? = some (some u))
    (hl : V[l]? = some (some v)) (hd : f.degree < g.degree) : ∃ (S : Vals α) (q : CPoly α) (m : ℕ), VRep rep S V ∧ CPoly.PRep rep q 0 ∧
      Sim (run O inv (ops ++ [.divmod i j k l]) ⟨[], []⟩) (vassign O (S.set k (some q)) l i) fun w S' => Inv w S' m := by
  obtain ⟨r, e, hV, hn⟩ := sat_false.1 (vrun_ok (inv := inv) H hr 0 vrep_empty)
  obtain ⟨q, hq, e'⟩ := vquot_short H hV hi hj hk hl hd
  refine ⟨r.1, q, r.2, hV, hq, ?_⟩
  have hs := run_sim (O := O) (inv := inv) (ops ++ [.divmod i j k l]) inv_empty
  rw [vrun_append, e, ok_bind] at hs
  simp only [vrun, vstep, e', bind_assoc, ok_bind] at hs
  revert hs
  cases run O inv (ops ++ [.divmod i j k l]) ⟨[], []⟩ <;> cases vassign O (r.1.set k (some q)) l i <;> exact id

/-- C116: division of a polynomial by one of larger degree with the quotient in the dividend loses the remainder: both results are 0. -/
theorem C116_violated_quotient_in_dividend (H : CoefRef False O rep ord) {ops : List (Op α)} {V : Polys R} {n : ℕ} (hr : SRun rep [] ops V n)
    {i j l : ℕ} {f g : R[X]} {v : Option R[X]} (hi : V[i]? = some (some (some f))) (hj : V[j]? = some (some (some g)))
    (hl : V[l]? = some (some v)) (hd : f.degree < g.degree) (hil : i ≠ l) :
    (run O inv (ops ++ [.divmod i j i l]) ⟨[], []⟩).Ok fun w => Holds rep w i 0 ∧ Holds rep w l 0 := by
  obtain ⟨S, q, m, hV, hq, hs⟩ := run_short (inv := inv) H hr hi hj hi hl hd
  obtain ⟨A, a1, -, -⟩ := hV.poly hi
  obtain ⟨L, l1, l2⟩ := hV.some' hl
  have hlt := (List.getElem?_eq_some_iff.1 a1).1
  have e1 : val (S.set i (some q)) l = ok L := by unfold val; rw [List.getElem?_set_ne hil, l1]
  have e2 : val (S.set i (some q)) i = ok q := by unfold val; rw [List.getElem?_set_self hlt]
  obtain ⟨Q, eQ, hQ⟩ := sat_false.1 (CPoly.copy_sat (U := False) (O := O) hq)
  have e : vassign O (S.set i (some q)) l i = ok ((S.set i (some q)).set l (some Q)) := by
    unfold vassign
    simp only [e1, e2, ok_bind, if_neg (Ne.symm hil), eQ]
  refine (hs.ok_left e).mono fun w h => ?_
  have hV' : VRep rep ((S.set i (some q)).set l (some Q)) ((V.set i (some (some 0))).set l (some (some 0))) :=
    (hV.set (a := some q) (b := some (some 0)) hq).set (a := some Q) (b := some (some 0)) hQ.1
  have hi' := (List.getElem?_eq_some_iff.1 hi).1
  have hl' := (List.getElem?_eq_some_iff.1 hl).1
  exact ⟨holds_of h hV' (by rw [List.getElem?_set_ne (Ne.symm hil), List.getElem?_set_self hi']),
    holds_of h hV' (by rw [List.getElem?_set_self (by simpa using hl')])⟩

/-- C116: the same with the remainder in the dividend: the dividend, which is the remainder, is assigned to itself and loses its coefficients. -/
theorem C116_violated_remainder_in_dividend (H : CoefRef False O rep ord) {ops : List (Op α)} {V : Polys R} {n : ℕ} (hr : SRun rep [] ops V n)
    {i j k : ℕ} {f g : R[X]} {u : Option R[X]} (hi : V[i]? = some (some (some f))) (hj : V[j]? = some (some (some g)))
    (hk : V[k]? = some (some u)) (hd : f.degree < g.degree) (hik : k ≠ i) :
    (run O inv (ops ++ [.divmod i j k i]) ⟨[], []⟩).Ok fun w => ∃ o, w.objs[i]? = some (some o) ∧ o.degree = f.natDegree ∧
      w.heap[o.coeffs]? = some (some (List.replicate (f.natDegree + 1) O.dflt)) := by
  obtain ⟨S, q, m, hV, hq, hs⟩ := run_short (inv := inv) H hr hi hj hk hi hd
  obtain ⟨A, a1, -, a3⟩ := hV.poly hi
  have hlt := (List.getElem?_eq_some_iff.1 a1).1
  have e2 : val (S.set k (some q)) i = ok A := by unfold val; rw [List.getElem?_set_ne hik, a1]
  have e : vassign O (S.set k (some q)) i i = ok ((S.set k (some q)).set i (some (lost O A))) := by
    unfold vassign
    simp only [e2, ok_bind, if_true]
  refine (hs.ok_left e).mono fun w h => ?_
  obtain ⟨o, h1, h2⟩ := h.obj i (lost O A) (by rw [List.getElem?_set_self (by simpa using hlt)])
  exact ⟨o, h1, by rw [h2.deg, a3.deg]; rfl, by rw [h2.at_, a3.deg]; rfl⟩

/-- The array of an object: what the tests below look at. -/
def arr (w : World IntMod) (i : ℕ) : Option (List ℤ) :=
  match w.objs[i]? with
  | some (some o) => match w.heap[o.coeffs]? with
    | some (some cs) => some (cs.map IntMod.residue)
    | _ => none
  | _ => none

/-- X + 3 modulo 7, its square, and the quotient and remainder of the two; six arrays for four objects. -/
example : (run IntMod.cops ⟨0, 1⟩ [.const ⟨3, 7⟩, .set 0 1 ⟨1, 7⟩, .mul 0 0, .create, .create, .divmod 1 0 2 3] ⟨[], []⟩).Ok fun w =>
    arr w 0 = some [3, 1] ∧ arr w 1 = some [2, 6, 1] ∧ arr w 2 = some [3, 1] ∧ arr w 3 = some [0] ∧ w.heap.countP Option.isSome = 6 := by
  refine ⟨_, rfl, ?_⟩; decide +kernel

/-- The square divided by X + 3 with the quotient in the dividend is right. -/
example : (run IntMod.cops ⟨0, 1⟩ [.const ⟨3, 7⟩, .set 0 1 ⟨1, 7⟩, .mul 0 0, .create, .divmod 1 0 1 2] ⟨[], []⟩).Ok fun w =>
    arr w 1 = some [3, 1] ∧ arr w 2 = some [0] := by
  refine ⟨_, rfl, ?_⟩; decide +kernel

/-- X + 3 divided by its square with the quotient in the dividend: the remainder should be X + 3. -/
example : (run IntMod.cops ⟨0, 1⟩ [.const ⟨3, 7⟩, .set 0 1 ⟨1, 7⟩, .mul 0 0, .create, .divmod 0 1 0 2] ⟨[], []⟩).Ok fun w =>
    arr w 0 = some [0] ∧ arr w 2 = some [0] := by
  refine ⟨_, rfl, ?_⟩; decide +kernel

/-- The specification of the first of these programs, with everything destroyed but the square. -/
example : SRun (IntMod.Rep 7) [] [.const ⟨3, 7⟩, .set 0 1 ⟨1, 7⟩, .mul 0 0, .destroy 0]
    [none, some (some ((C 3).update 1 1 * (C 3).update 1 1))] 1 :=
  .cons (.const (x := 3) (by constructor <;> decide)) <| .cons (.set (f := C 3) (x := 1) rfl (by constructor <;> decide)) <|
    .cons (.mul (f := (C 3).update 1 1) (g := (C 3).update 1 1) rfl rfl) <| .cons (.destroy (v := some ((C 3).update 1 1)) rfl) .nil

end PolyStores
end Spffl.Props
