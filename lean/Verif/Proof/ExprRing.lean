import Verif.Proof.ExprMat
import Verif.Proof.DomMat

/-!
# The calculators for matrices over domains: proofs
-/

namespace Spffl.Expr
open Res VText Props.Expr90

section sem
variable {R : Type} [CommRing R]

/-- What the prefix operators give over a domain.  The determinant is replaced by zero if it is not a unit, and may be refused. -/
inductive RUn : Op → MVal R → Option (MVal R) → Prop
  | neg {m n} (M : Matrix (Fin m) (Fin n) R) : RUn .uminus (.mat M) (some (.mat (-M)))
  | transpose {m n} (M : Matrix (Fin m) (Fin n) R) : RUn .transpose (.mat M) (some (.mat M.transpose))
  | det {n} {M : Matrix (Fin n) (Fin n) R} : IsUnit M.det → RUn .det (.mat M) (some (.scalar M.det))
  | det_zero {n} {M : Matrix (Fin n) (Fin n) R} : ¬ IsUnit M.det → RUn .det (.mat M) (some (.scalar 0))
  | det_refused {n} {M : Matrix (Fin n) (Fin n) R} : 2 ≤ n → RUn .det (.mat M) none
  | det_err {m n} {M : Matrix (Fin m) (Fin n) R} : m ≠ n → RUn .det (.mat M) none
  | scalar (o : Op) (x : R) : RUn o (.scalar x) none
  | int (o : Op) (k : ℤ) : RUn o (.int k) none
  | other {o : Op} (v : MVal R) : o ≠ .uminus → matPre o = false → RUn o v none

/-- What an expression gives over a domain.  The infix operators mean what they mean over fields. -/
inductive RDen (Lit : String → Option (MVal R) → Prop) : Bool → Tree → Option (MVal R) → Prop
  | lit {s r} : Lit s r → RDen Lit false (.lit s) r
  | int (s) : RDen Lit true (.lit s) ((intLit s).map .int)
  | un {b o t v r} : RDen Lit b t (some v) → RUn o v r → RDen Lit b (.un o t) r
  | un_err {b o t} : RDen Lit b t none → RDen Lit b (.un o t) none
  | bin {b o t u v w r} : RDen Lit b t (some v) → RDen Lit (b || o = .exp) u (some w) → MBin o v w r → RDen Lit b (.bin o t u) r
  | left_err {b o t u} : RDen Lit b t none → RDen Lit b (.bin o t u) none
  | right_err {b o t u} : RDen Lit (b || o = .exp) u none → RDen Lit b (.bin o t u) none

/-- No elimination other than for determinants. -/
def Plain : Tree → Prop
  | .lit _ => True
  | .un o t => o ∉ [Op.rank, .inv, .kerbas, .rr, .rech, .rechr, .rrnz, .rechnz] ∧ Plain t
  | .bin _ t u => Plain t ∧ Plain u

/-- Nor determinants. -/
def NoDet : Tree → Prop
  | .lit _ => True
  | .un o t => o ≠ .det ∧ NoDet t
  | .bin _ t u => NoDet t ∧ NoDet u

/-- Without determinants the value is the meaning. -/
theorem RDen.den {Lit : String → Option (MVal R) → Prop} {b : Bool} {t : Tree} {r : Option (MVal R)} (h : RDen Lit b t r) (hd : NoDet t) : MDen Lit b t r := by
  induction h with
  | lit h => exact .lit h
  | int s => exact .int s
  | un _ hu ih =>
    refine .un (ih hd.2) ?_
    cases hu with
    | neg M => exact .neg M
    | transpose M => exact .transpose M
    | det _ => exact absurd rfl hd.1
    | det_zero _ => exact absurd rfl hd.1
    | det_refused _ => exact absurd rfl hd.1
    | det_err h => exact .det_err h
    | scalar => exact .scalar _ _
    | int => exact .int _ _
    | other _ h1 h2 => exact .other _ h1 h2
  | un_err _ ih => exact .un_err (ih hd.2)
  | bin _ _ hb ih1 ih2 => exact .bin (ih1 hd.1) (ih2 hd.2) hb
  | left_err _ ih => exact .left_err (ih hd.1)
  | right_err _ ih => exact .right_err (ih hd.2)

end sem

section ops
variable {U : Prop} {α R : Type} [CommRing R] {O : TOps α} {rep : α → R → Prop} {zero one : α}

theorem matUn_dom (H : DomRef U O rep) {a : MAtom (TMat α) α} {v : MVal R} (h : MARep rep a v) (o : Op) (N : o = .uminus → NegRef U O rep)
    (ho : o ∉ [Op.rank, .inv, .kerbas, .rr, .rech, .rechr, .rrnz, .rechnz]) : Out U (matUn (matOps O zero one) o a) (MARep rep) (RUn o v) := by
  cases a with
  | scalar a =>
    cases v with
    | scalar x => cases o <;> exact .scalar _ x
    | mat _ => exact h.elim
    | int _ => exact h.elim
  | int a =>
    cases v with
    | int x => cases o <;> exact .int _ x
    | mat _ => exact h.elim
    | scalar _ => exact h.elim
  | mat A =>
    cases v with
    | scalar x => exact h.elim
    | int _ => exact h.elim
    | @mat m n M =>
      obtain ⟨hm, hn, hA⟩ := h
      cases o with
      | uminus => exact out_mat hm hn ((neg_sat' (N rfl) hm hn hA).mono fun r hr => ⟨_, hr, rfl⟩) fun _ e => e ▸ .neg M
      | transpose => exact out_mat hn hm ((transpose_sat hm hn hA).mono fun r hr => ⟨_, hr, rfl⟩) fun _ e => e ▸ .transpose M
      | det =>
        by_cases hmn : m = n
        · subst hmn
          have := det_dom H hm hA
          show Out U (TMat.det O A >>= fun d => ok (MAtom.scalar d)) _ _
          cases e : TMat.det O A with
          | ok d =>
            rw [e] at this
            have this : rep d _ := this
            by_cases hu : IsUnit M.det
            · rw [if_pos hu] at this
              exact ⟨.scalar M.det, this, .det hu⟩
            · rw [if_neg hu] at this
              exact ⟨.scalar 0, this, .det_zero hu⟩
          | throw => rw [e] at this; exact .det_refused this
          | ub => rw [e] at this; exact this
          | timeout => rw [e] at this; exact this
        · refine Out.of_throws (.inl ?_) (.det_err hmn)
          show (TMat.det O A >>= _) = .throw
          rw [show TMat.det O A = .throw by unfold TMat.det TMat.is_square; simp [hA.shape.nr, hA.shape.nc, hmn]]
          rfl
      | rank => simp at ho
      | inv => simp at ho
      | kerbas => simp at ho
      | rr => simp at ho
      | rech => simp at ho
      | rechr => simp at ho
      | rrnz => simp at ho
      | rechnz => simp at ho
      | _ => exact .other _ (by simp) rfl

theorem matPow_dom (H : DomRef U O rep) {A : TMat α} {m n : ℕ} {M : Matrix (Fin m) (Fin n) R} (hm : 0 < m) (hA : MRep rep A M) {k : ℤ}
    (hk : InInt k) (hk1 : 1 ≤ k) :
    Out U (matBin (matOps O zero one) .exp (.mat A) (.int k)) (MARep rep) (MBin .exp (.mat M) (.int k)) := by
  show Out U ((TMat.exp O A k >>= fun r => ok (if r.1 then r.2 else none)) >>= fun r => orThrow r >>= fun c => ok (MAtom.mat c)) _ _
  rw [bind_assoc]
  by_cases hmn : m = n
  · subst hmn
    refine Out.sat_bind (dexp_sat H hm hA hk hk1) ?_
    rintro ⟨b, o⟩ ⟨hb, B, ho, hB⟩
    simp only at hb ho
    subst hb ho
    exact ⟨.mat _, ⟨hm, hm, hB⟩, .pow hk1⟩
  · refine Out.of_throws (.inl ?_) (.pow_err hmn)
    rw [show TMat.exp O A k = .throw by unfold TMat.exp TMat.is_square; simp [hA.shape.nr, hA.shape.nc, hmn]]
    rfl

theorem dom_eval_out (H : DomRef U O rep) {scan : String → Res (TMat α)} {Lit : String → Option (MVal R) → Prop} (t : Tree) :
    ∀ (b : Bool), Plain t → (Minus t → NegRef U O rep) →
    (∀ s, (false, s) ∈ t.lits b → Out U (scan s >>= fun a => ok (.mat a)) (MARep rep) (Lit s)) →
    (∀ s n, (true, s) ∈ t.lits b → Scan.readInt s.toList = ok n → 1 ≤ n) →
    Out U (eval (matrix (matOps O zero one) scan (fun s => Scan.readInt s.toList)) b t) (MARep rep) (RDen Lit b t) := by
  induction t with
  | lit s =>
    intro b _ N hl hx
    cases b with
    | false => exact (hl s (by simp [Tree.lits])).mono fun r hr => .lit hr
    | true =>
      show Out U (Scan.readInt s.toList >>= fun n => ok (MAtom.int n)) _ _
      have hr := intLit_right s
      have hi := RDen.int (Lit := Lit) s
      cases hl : intLit s with
      | none =>
        rw [hl] at hr hi
        exact Out.of_throws (Throws.bind (.inl (throws_false.1 hr))) hi
      | some k =>
        rw [hl] at hr hi
        obtain ⟨n, e, hn, _⟩ := sat_false.1 hr
        rw [e]
        exact ⟨.int k, hn, hi⟩
  | un o t ih =>
    intro b hp N hl hx
    exact (ih b hp.2 (fun h => N (.inr (.inr h))) hl hx).bind (fun a v _ ha hv => (matUn_dom H ha o (fun h => N (.inl h)) hp.1).mono fun r hr => .un hv hr) .un_err
  | bin o t u ih1 ih2 =>
    intro b hp N hl hx
    have ml : ∀ {x}, x ∈ t.lits b → x ∈ (Tree.bin o t u).lits b := fun h => by simp [Tree.lits, h]
    have mr : ∀ {x}, x ∈ u.lits (b || o = .exp) → x ∈ (Tree.bin o t u).lits b := fun h => by simp only [Tree.lits, List.mem_append]; exact .inr h
    refine (ih1 b hp.1 (fun h => N (.inl h)) (fun s hs => hl s (ml hs)) fun s n hs => hx s n (ml hs)).bind (fun a v _ ha hv => ?_) .left_err
    refine (ih2 _ hp.2 (fun h => N (.inr h)) (fun s hs => hl s (mr hs)) fun s n hs => hx s n (mr hs)).bind (fun c w hc hcw hw => ?_) .right_err
    refine (matBin_gen H.toEltRef ha hcw o fun {A m n M k} ho hk hm hn hA => ?_).mono fun r hr => .bin hv hw hr
    subst ho hk
    simp only [decide_true, Bool.or_true] at hc mr
    obtain ⟨n, s, hn, hs, hr⟩ := mat_eval_pow u _ hc
    cases hn
    exact matPow_dom H hm hA ((Scan.readInt_ok_iff _ k).1 hr).1 (hx s k (mr hs) hr)

end ops
end Spffl.Expr
