import Verif.Proof.ExprMat
import Verif.Props.CMod
import Verif.Props.IntMod
import Verif.Props.F2PolyMod
import Verif.Props.VecText
import Verif.Props.EDInv

/-!
# The calculators for vectors: proofs
-/

namespace Spffl.Expr
open Res VText Props.Expr90

/-! ### What expressions mean -/

/-- The values: a vector, or an integer (an exponent, or the answer of a comparison). -/
inductive VVal (n : ℕ) (F : Type)
  | vec (x : Fin n → F)
  | int (k : ℤ)

section sem
variable {F : Type} [Field F] {n : ℕ}

open Classical in
/-- `x` to the power `k`, undefined for zero to a power that is not positive. -/
noncomputable def powF (x : F) (k : ℤ) : Option F := if x = 0 ∧ k ≤ 0 then none else some (x ^ k)

noncomputable def vun : Op → VVal n F → Option (VVal n F)
  | .uminus, .vec x => some (.vec (-x))
  | _, _ => none

open Classical in
/-- Sums, differences, products and powers are taken entry by entry. -/
noncomputable def vbin : Op → VVal n F → VVal n F → Option (VVal n F)
  | .plus, .vec x, .vec y => some (.vec (x + y))
  | .minus, .vec x, .vec y => some (.vec (x - y))
  | .mul, .vec x, .vec y => some (.vec fun i => x i * y i)
  | .exp, .vec x, .int k => if ∃ i, x i = 0 ∧ k ≤ 0 then none else some (.vec fun i => x i ^ k)
  | .eq, .vec x, .vec y => some (.int (if x = y then 1 else 0))
  | .ne, .vec x, .vec y => some (.int (if x = y then 0 else 1))
  | _, _, _ => none

/-- What an expression means, given the literals.  To the right of `^` literals are integers. -/
noncomputable def vden (lit : String → Option (Fin n → F)) : Bool → Tree → Option (VVal n F)
  | b, .lit s => if b then (intLit s).map .int else (lit s).map .vec
  | b, .un o t => vden lit b t >>= vun o
  | b, .bin o t u => vden lit b t >>= fun v => vden lit (b || o = .exp) u >>= vbin o v

end sem

/-! ### The operators -/

section ops
variable {U : Prop} {α F : Type} [Field F] {O : TOps α} {rep : α → F → Prop} {n : ℕ}

/-- `ex` raises to a power, for the exponents in `G`. -/
def PowRef (U : Prop) (G : ℤ → Prop) (ex : α → Int → Res α) (rep : α → F → Prop) : Prop :=
  ∀ {a x k}, rep a x → InInt k → G k → Right U (ex a k) (powF x k) rep

theorem loopUp_throws {σ : Type} {body : ℕ → σ → Res σ} {I : σ → Prop} {i0 : ℕ} : ∀ (k lo : ℕ) (s : σ), I s → lo ≤ i0 → i0 < lo + k →
    (∀ i s, I s → lo ≤ i → i < lo + k → (body i s).Throws U ∨ (body i s).Sat U I) → (∀ s, I s → (body i0 s).Throws U) → (loopUp body k lo s).Throws U
  | 0, lo, s, _, h1, h2, _, _ => by omega
  | k + 1, lo, s, hs, h1, h2, hb, h0 => by
    unfold loopUp
    by_cases e : lo = i0
    · exact Throws.bind (by rw [e]; exact h0 s hs)
    · rcases hb lo s hs (le_refl _) (by omega) with h | h
      · exact Throws.bind h
      · exact h.throws_bind fun s' hs' => loopUp_throws k (lo + 1) s' hs' (by omega) (by omega)
          (fun i s hi h1 h2 => hb i s hi (by omega) (by omega)) h0

open Classical in
theorem vexp_right {G : ℤ → Prop} {ex : α → Int → Res α} (hp : PowRef U G ex rep) {v : TVec α} {x : Fin n → F} (hn : 0 < n) (hv : VRep rep v x) {k : ℤ}
    (hk : InInt k) (hG : G k) : Right U (TVec.exp O ex v k) (if ∃ i, x i = 0 ∧ k ≤ 0 then none else some (fun i => x i ^ k)) (VRep rep) := by
  unfold TVec.exp
  by_cases h : ∃ i, x i = 0 ∧ k ≤ 0
  · rw [if_pos h]
    obtain ⟨i, hi⟩ := h
    show Throws U _
    unfold TVec.tabulate TVec.alloc
    rw [hv.1, if_neg (by omega), ok_bind]
    refine loopUp_throws (I := fun s : List α => s.length = n) (i0 := i) n 0 _ (by simp) (Nat.zero_le _) (by simpa using i.2) ?_ ?_
    · intro j s hs _ hj
      obtain ⟨a, ha, hr⟩ := hv.at (j := j) (by omega)
      have hr := hp hr hk hG
      dsimp only
      rw [show rd v j = ok a by unfold rd; rw [ha], ok_bind]
      unfold store
      cases hpw : powF (x ⟨j, by omega⟩) k with
      | none => rw [hpw] at hr; exact .inl (Throws.bind hr)
      | some y =>
        rw [hpw] at hr
        refine .inr (Sat.bind hr fun e he => ?_)
        rw [wr_ok (by omega)]
        simpa using hs
    · intro s hs
      obtain ⟨a, ha, hr⟩ := hv.at i.2
      have hr := hp hr hk hG
      rw [show powF (x ⟨i, i.2⟩) k = none by unfold powF; exact if_pos hi] at hr
      dsimp only
      rw [show rd v i = ok a by unfold rd; rw [ha], ok_bind]
      exact Throws.bind hr
  · rw [if_neg h]
    push Not at h
    rw [hv.1]
    refine (vtab_sat (P := fun i e => ∀ hi : i < n, rep e (x ⟨i, hi⟩ ^ k)) hn fun i hi => ?_).mono
      fun r ⟨h1, h2⟩ => VRep.of h1 fun j hj => (h2 j hj).mono fun e he => he hj
    refine (rd_sat (hv.at hi)).bind fun a ha => ?_
    have hr := hp ha hk hG
    rw [show powF (x ⟨i, hi⟩) k = some (x ⟨i, hi⟩ ^ k) by
      unfold powF; exact if_neg fun hc => absurd hc.2 (not_le.2 (h _ hc.1))] at hr
    exact Sat.mono hr fun r hr _ => hr

/-- What an atom stands for. -/
def VARep (rep : α → F → Prop) : MAtom (TVec α) α → VVal n F → Prop
  | .mat v, .vec x => VRep rep v x
  | .int m, .int k => m = k
  | _, _ => False

theorem vecUn_right (hn : 0 < n) {ex : α → Int → Res α} {a : MAtom (TVec α) α} {v : VVal n F} (h : VARep rep a v) (o : Op) (N : o = .uminus → NegRef U O rep) :
    Right U (vecUn (vecOps O ex) o a) (vun o v) (VARep rep) := by
  cases a with
  | mat a =>
    cases v with
    | vec x =>
      cases o <;> try exact .inl rfl
      exact (vunary_sat (fun h => (N rfl).neg h) hn h).bind fun r hr => hr
    | int k => exact h.elim
  | scalar a => cases v <;> exact h.elim
  | int m =>
    cases v with
    | vec x => exact h.elim
    | int k => cases o <;> exact .inl rfl

theorem vecBin_right (H : EltRef U O rep) (hn : 0 < n) {G : ℤ → Prop} {ex : α → Int → Res α} (hp : PowRef U G ex rep) {a b : MAtom (TVec α) α} {v w : VVal n F}
    (ha : VARep rep a v) (hb : VARep rep b w) (o : Op) (hi : ∀ k, o = .exp → b = .int k → InInt k ∧ G k) :
    Right U (vecBin (vecOps O ex) o a b) (vbin o v w) (VARep rep) := by
  classical
  cases a with
  | mat a =>
    cases v with
    | int k => exact ha.elim
    | vec x =>
      cases b with
      | mat b =>
        cases w with
        | int k => exact hb.elim
        | vec y =>
          cases o <;> try exact .inl rfl
          case plus => exact (vcomp_sat (fun h1 h2 => H.add h1 h2) hn ha hb).bind fun r hr => hr
          case minus => exact (vcomp_sat (fun h1 h2 => H.sub h1 h2) hn ha hb).bind fun r hr => hr
          case mul => exact (vcomp_sat (fun h1 h2 => H.mul h1 h2) hn ha hb).bind fun r hr => hr
          case eq =>
            refine (veq_sat H ha hb).bind fun r hr => ?_
            show (if r = true then (1 : ℤ) else 0) = if x = y then 1 else 0
            simp only [hr]
          case ne =>
            refine Sat.bind (P := fun r => r = true ↔ x ≠ y) ((veq_sat H ha hb).bind fun r hr => ?_) fun r hr => ?_
            · show (!r) = true ↔ _
              rw [Bool.not_eq_true', ← Bool.not_eq_true, hr]
            · show (if r = true then (1 : ℤ) else 0) = if x = y then 0 else 1
              simp only [hr, ne_eq, ite_not]
      | scalar b => cases w <;> exact hb.elim
      | int m =>
        cases w with
        | vec y => exact hb.elim
        | int k =>
          obtain rfl : m = k := hb
          cases o <;> try exact .inl rfl
          obtain ⟨h1, h2⟩ := hi m rfl rfl
          have := vexp_right (O := O) hp hn ha h1 h2
          have h := Right.bind (Q := VARep rep) (f := fun c => ok (MAtom.mat (α := α) c)) (g := fun y => some (VVal.vec y)) this fun b y hy => hy
          show Right U (TVec.exp O ex a m >>= fun c => ok (MAtom.mat c)) (if ∃ i, x i = 0 ∧ m ≤ 0 then none else some (VVal.vec fun i => x i ^ m)) _
          convert h using 1
          split <;> rfl
  | scalar a => cases v <;> exact ha.elim
  | int m =>
    cases v with
    | vec x => exact ha.elim
    | int k => cases o <;> cases b <;> cases w <;> exact .inl rfl

/-- To the right of `^`, a value is an integer literal. -/
theorem vec_eval_pow {O : VOps (TVec α)} {scan : String → Res (TVec α)} {scanI : String → Res Int} (t : Tree) :
    ∀ a : MAtom (TVec α) α, eval (vector O scan scanI) true t = ok a → ∃ n s, a = .int n ∧ (true, s) ∈ t.lits true ∧ scanI s = ok n := by
  have nb : ∀ {β γ : Type} {r : Res β} {f : β → Res γ} {c : γ}, r >>= f = ok c → ∃ b, r = ok b ∧ f b = ok c := by
    intro β γ r f c h
    cases r with
    | ok b => exact ⟨b, rfl, h⟩
    | _ => cases h
  induction t with
  | lit s =>
    intro a h
    obtain ⟨n, h1, h2⟩ := nb (show (scanI s >>= fun n => ok (MAtom.int n)) = ok a from h)
    cases h2
    exact ⟨n, s, rfl, by simp [Tree.lits], h1⟩
  | un o t ih =>
    intro a h
    obtain ⟨v, h1, h2⟩ := nb (show (eval (vector O scan scanI) true t >>= fun a => vecUn O o a) = ok a from h)
    obtain ⟨n, s, rfl, _⟩ := ih v h1
    cases o <;> cases h2
  | bin o t u ih1 ih2 =>
    intro a h
    obtain ⟨v, h1, h2⟩ := nb (show (eval (vector O scan scanI) true t >>= fun a => eval (vector O scan scanI) (true || o = .exp) u >>= fun b => vecBin O o a b) = ok a from h)
    obtain ⟨n, s, rfl, _⟩ := ih1 v h1
    obtain ⟨w, h3, h4⟩ := nb h2
    cases o <;> cases h4

theorem vec_eval_right (H : EltRef U O rep) (hn : 0 < n) {G : ℤ → Prop} {ex : α → Int → Res α} (hp : PowRef U G ex rep)
    {scan : String → Res (TVec α)} {lit : String → Option (Fin n → F)} (t : Tree) : ∀ (b : Bool), (Minus t → NegRef U O rep) →
    (∀ s, (false, s) ∈ t.lits b → Right U (if '[' ∈ s.toList then scan s else throw) (lit s) (VRep rep)) →
    (∀ s n, (true, s) ∈ t.lits b → Scan.readInt s.toList = ok n → G n) →
    Right U (eval (vector (vecOps O ex) scan (fun s => Scan.readInt s.toList)) b t) (vden lit b t) (VARep rep) := by
  induction t with
  | lit s =>
    intro b N hl hx
    cases b with
    | false =>
      have h := Right.bind (Q := VARep rep) (f := fun a => ok (MAtom.mat (α := α) a)) (g := fun x => some (VVal.vec x)) (hl s (by simp [Tree.lits])) fun b y hy => hy
      show Right U (if '[' ∈ s.toList then (scan s >>= fun a => ok (MAtom.mat a)) else throw) ((lit s).map VVal.vec) _
      convert h using 1
      · split <;> rfl
      · cases lit s <;> rfl
    | true =>
      have h := Right.bind (U := U) (Q := VARep (n := n) rep) (f := fun m => ok (MAtom.int (M := TVec α) (α := α) m)) (g := fun k => some (VVal.int k))
        (r := Scan.readInt s.toList) (d := intLit s) (P := fun n k => n = k ∧ InInt n) (by
          have := intLit_right s
          cases hl : intLit s with
          | none => rw [hl] at this; exact .inl (throws_false.1 this)
          | some k => rw [hl] at this; exact (sat_false.1 this).sat) fun b y hy => hy.1
      show Right U (Scan.readInt s.toList >>= fun a => ok (MAtom.int a)) ((intLit s).map VVal.int) _
      convert h using 1
      cases intLit s <;> rfl
  | un o t ih =>
    intro b N hl hx
    exact (ih b (fun h => N (.inr (.inr h))) hl hx).bind (f := fun a => vecUn (vecOps O ex) o a) (g := vun o) fun a v ha => vecUn_right hn ha o fun h => N (.inl h)
  | bin o t u ih1 ih2 =>
    intro b N hl hx
    have ml : ∀ {x}, x ∈ t.lits b → x ∈ (Tree.bin o t u).lits b := fun h => by simp [Tree.lits, h]
    have mr : ∀ {x}, x ∈ u.lits (b || o = .exp) → x ∈ (Tree.bin o t u).lits b := fun h => by simp only [Tree.lits, List.mem_append]; exact .inr h
    refine (ih1 b (fun h => N (.inl h)) (fun s hs => hl s (ml hs)) fun s n hs => hx s n (ml hs)).bind
      (f := fun a => eval (vector (vecOps O ex) scan (fun s => Scan.readInt s.toList)) (b || o = .exp) u >>= fun c => vecBin (vecOps O ex) o a c)
      (g := fun v => vden lit (b || o = .exp) u >>= vbin o v) fun a v ha => ?_
    have hu := ih2 _ (fun h => N (.inr h)) (fun s hs => hl s (mr hs)) fun s n hs => hx s n (mr hs)
    have hu' : Right U (eval (vector (vecOps O ex) scan (fun s => Scan.readInt s.toList)) (b || o = .exp) u) (vden lit (b || o = .exp) u)
        (fun c w => VARep rep c w ∧ eval (vector (vecOps O ex) scan (fun s => Scan.readInt s.toList)) (b || o = .exp) u = ok c) := by
      revert hu
      generalize eval (vector (vecOps O ex) scan (fun s => Scan.readInt s.toList)) (b || o = .exp) u = r
      intro hu
      cases hd : vden lit (b || o = .exp) u with
      | none => rw [hd] at hu; exact hu
      | some w =>
        rw [hd] at hu
        cases r with
        | ok c => exact ⟨hu, rfl⟩
        | _ => exact hu
    refine hu'.bind fun c w hc => vecBin_right H hn hp ha hc.1 o fun k ho hk => ?_
    subst ho hk
    have hc := hc.2
    simp only [decide_true, Bool.or_true] at hc mr
    obtain ⟨n, s, hn, hs, hr⟩ := vec_eval_pow u _ hc
    cases hn
    exact ⟨((Scan.readInt_ok_iff _ k).1 hr).1, hx s k (mr hs) hr⟩

/-! ### Texts -/

/-- The text of a literal. -/
def VLit (Text : List Char → F → Prop) (s : String) (x : Fin n → F) : Prop :=
  ∃ pre body post, s.toList = pre ++ '[' :: (body ++ ']' :: post) ∧ '[' ∉ pre ∧ ']' ∉ post ∧ VecText Text body (List.ofFn x)

/-- No text of a literal: there is no `[`, or no `]` after the first. -/
def NoLit (s : String) : Prop := '[' ∉ s.toList ∨ ∃ pre r, s.toList = pre ++ '[' :: r ∧ '[' ∉ pre ∧ ']' ∉ r

/-- The text printed for a value. -/
def VShows (Text : List Char → F → Prop) (w : List Char) : VVal n F → Prop
  | .vec x => ∃ t, w = t ++ ['\n'] ∧ VecText Text t (List.ofFn x)
  | .int k => w = Scan.showInt k ++ ['\n']

variable {E : EltIO α} {Text : List Char → F → Prop} {zero : α}

theorem vecScan_right (H : EltSpec U E rep Text) (h0 : rep zero 0) {s : String} {o : Option (Fin n → F)}
    (ho : (∃ x, o = some x ∧ VLit Text s x) ∨ (o = none ∧ NoLit s)) :
    Right U (if '[' ∈ s.toList then vecScan E zero s else throw) o (VRep rep) := by
  rcases ho with ⟨x, rfl, pre, body, post, hs, h1, h2, h3⟩ | ⟨rfl, h⟩
  · rw [if_pos (by rw [hs]; simp)]
    have := Props.VText94.C94_vector_bracket (v := []) H (H.sub h0) h1 h2 h3 (n := s.toList.length + 1) (by
      have := h3.length_le H
      rw [hs]
      simp only [List.length_append, List.length_cons]
      omega)
    rw [← hs] at this
    refine Sat.bind this fun o ho => ?_
    obtain ⟨w, rfl, hw⟩ := ho
    refine ⟨by simpa using hw.length_eq, fun j => ?_⟩
    obtain ⟨b, hb, hr⟩ := forall₂_get? hw j
    exact ⟨b, hb, hr⟩
  · split
    · unfold vecScan
      rw [Props.VText94.C94_vector_bracket_missing h]
      exact .inl rfl
    · exact .inl rfl

theorem showVAtom_ok (H : EltSpec U E rep Text) (hn : 0 < n) {a : MAtom (TVec α) α} {v : VVal n F} (h : VARep rep a v) :
    ∃ w, showVAtom E a = ok w ∧ VShows Text w v := by
  cases a with
  | mat a =>
    cases v with
    | vec x =>
      have hf : List.Forall₂ rep a (List.ofFn x) := forall₂_ofFn h.1 fun i b hb => by
        obtain ⟨e, he, hr⟩ := h.2 i
        rw [hb] at he
        cases he
        exact hr
      obtain ⟨t, h1, h2, _⟩ := showVec_ok H hf (by rintro rfl; have := h.1; simp at this; omega)
      exact ⟨t ++ ['\n'], by show (showVec E a >>= fun t => ok (t ++ ['\n'])) = _; rw [h1]; rfl, t, rfl, h2⟩
    | int k => exact h.elim
  | scalar a => cases v <;> exact h.elim
  | int m =>
    cases v with
    | vec x => exact h.elim
    | int k => obtain rfl : m = k := h; exact ⟨_, rfl, rfl⟩

/-- What the vector calculator prints for an expression. -/
theorem vecOp_right (H : EltRef U O rep) (S : EltSpec U E rep Text) (h0 : rep zero 0) (hn : 0 < n) {G : ℤ → Prop} {ex : α → Int → Res α}
    (hp : PowRef U G ex rep) {lit : String → Option (Fin n → F)} {ts : List String} {t : Tree} (N : Minus t → NegRef U O rep)
    (h : Derives vecG .Q t ts) (hl : ∀ s, (false, s) ∈ t.lits false → (∃ x, lit s = some x ∧ VLit Text s x) ∨ (lit s = none ∧ NoLit s))
    (hx : ∀ s n, (true, s) ∈ t.lits false → Scan.readInt s.toList = ok n → G n) :
    Right U (vecOp O ex E zero ts) (vden lit false t) (fun out v => ∃ w, out = [w] ∧ VShows Text w v) := by
  unfold vecOp
  rw [C90_vector _ _ _ h, bind_assoc]
  have := (vec_eval_right H hn hp t false N (fun s hs => vecScan_right S h0 (hl s hs)) hx).bind
    (f := fun v => each (showVAtom E) [v]) (g := some) (Q := fun out v => ∃ w, out = [w] ∧ VShows Text w v) fun a v ha => by
      obtain ⟨w, hw, hs⟩ := showVAtom_ok S hn ha
      show Right U (each (showVAtom E) [a]) (some v) _
      simp only [each, hw, ok_bind]
      exact ⟨w, rfl, hs⟩
  rw [show (vden lit false t >>= some) = vden lit false t by cases vden lit false t <;> rfl] at this
  exact this

/-! ### Vectors of different lengths -/

theorem assign_gen {d : α} {x y : VObj α} {t : List α} (ht : y.elements = some t) (hy : y.num_elements ≤ t.length)
    (hx : ∀ s, x.elements = some s → y.num_elements ≤ s.length) :
    ∃ s, VObj.assign d x y = ok ⟨some s, y.num_elements⟩ ∧ s.take y.num_elements = t.take y.num_elements ∧ y.num_elements ≤ s.length ∧
      s.length = (match x.elements with | none => y.num_elements | some s => s.length) := by
  have key : ∀ st : List α, y.num_elements ≤ st.length → (forUp 0 y.num_elements st fun i s => store s i (VObj.rdElem y i)).Sat False
      (fun r => r.length = st.length ∧ r.take y.num_elements = t.take y.num_elements) := by
    intro st hst
    refine (fillUp_sat (f := fun i _ => VObj.rdElem y i) (P := fun i e => t[i]? = some e) (Nat.zero_le _) hst fun i s _ hi _ _ _ => ?_).mono
      fun r ⟨h1, h2, _⟩ => ⟨h1, ?_⟩
    · unfold VObj.rdElem; rw [ht]; simp only; rw [rd_ok (by omega)]; simp [show i < t.length by omega]
    · apply List.ext_getElem?
      intro i
      by_cases hi : i < y.num_elements
      · rw [List.getElem?_take_of_lt hi, List.getElem?_take_of_lt hi]
        obtain ⟨e, he, he2⟩ := h2 i (by omega) hi
        rw [he, he2]
      · rw [List.getElem?_eq_none (by simp; omega), List.getElem?_eq_none (by simp; omega)]
  unfold VObj.assign
  simp only [lt_irrefl, if_false]
  cases hxe : x.elements with
  | none =>
    simp only
    obtain ⟨r, h1, h2⟩ := sat_false.mp (key (List.replicate y.num_elements d) (by simp))
    rw [h1]; simp only [ok_bind]
    exact ⟨r, rfl, h2.2, by rw [h2.1]; simp, by rw [h2.1]; simp⟩
  | some s =>
    simp only
    obtain ⟨r, h1, h2⟩ := sat_false.mp (key s (hx s hxe))
    rw [h1]; simp only [ok_bind]
    exact ⟨r, rfl, h2.2, by rw [h2.1]; exact hx s hxe, h2.1⟩

theorem vecSumEq_out (H : EltRef False O rep) {k : ℕ} (hn : 0 < n) {a b c : List α} {x y : Fin n → F} {z : Fin k → F} (ha : VRep rep a x) (hb : VRep rep b y)
    (hc : VRep rep c z) :
    (n < k → vecSumEq O a b c = ub) ∧ (k < n → vecSumEq O a b c = ok (.int 0)) ∧
      (∀ h : k = n, (vecSumEq O a b c).Ok fun r => ∃ m, r = .int m ∧ (m = 1 ∨ m = 0) ∧ (m = 1 ↔ x + y = h ▸ z)) := by
  have ev : ∀ {l : List α}, ∃ s, VObj.assign O.dflt VObj.empty (VObj.ofList l) = ok ⟨some s, l.length⟩ ∧ s = l := by
    intro l
    obtain ⟨s, h1, h2, h3, h4⟩ := assign_gen (d := O.dflt) (x := VObj.empty) (y := VObj.ofList l) (t := l) rfl (le_refl _) (by rintro s ⟨⟩)
    have h4 : s.length = l.length := h4
    refine ⟨s, h1, ?_⟩
    have h2 : s.take l.length = l.take l.length := h2
    rwa [List.take_length, ← h4, List.take_length] at h2
  have ev' : ∀ {l : List α}, VObj.assign O.dflt VObj.empty (VObj.ofList l) = ok (VObj.ofList l) := by
    intro l
    obtain ⟨s, h1, rfl⟩ := ev (l := l)
    exact h1
  have vv : ∀ {l : List α}, (VObj.ofList l).value = some l := by intro l; simp [VObj.value, VObj.ofList]
  obtain ⟨s, hs, hsr⟩ := sat_false.1 (vcomp_sat (O := O) (fun h1 h2 => H.add h1 h2) hn ha hb)
  have hs : TVec.add O a b = ok s := hs
  have e1 : vecSumEq O a b c = (do
      let slot1 ← VObj.assign O.dflt (VObj.ofList b) (VObj.ofList c)
      let B ← VObj.assign O.dflt VObj.empty slot1
      match (some s : Option (List α)), B.value with
      | some x, some y => do
        let r ← TVec.eq O x y
        ok (.int (if r then 1 else 0))
      | _, _ => ub) := by
    unfold vecSumEq
    simp only [ev', ok_bind, vv, hs]
    obtain ⟨w, h1, h2, h3, h4⟩ := assign_gen (d := O.dflt) (x := VObj.ofList a) (y := VObj.ofList s) (t := s) rfl (le_refl _) (by
      rintro _ ⟨⟩
      show s.length ≤ a.length
      rw [hsr.1, ha.1])
    have h4 : w.length = a.length := h4
    have h2 : w.take s.length = s.take s.length := h2
    rw [List.take_length, show s.length = w.length by rw [hsr.1, h4, ha.1], List.take_length] at h2
    subst h2
    have h1 : VObj.assign O.dflt (VObj.ofList a) (VObj.ofList w) = ok (VObj.ofList w) := h1
    simp only [h1, ok_bind, ev', vv]
    congr 1
  have e2 : k ≤ n → vecSumEq O a b c = (TVec.eq O s c >>= fun r => ok (.int (if r then 1 else 0))) := by
    intro hk
    rw [e1]
    obtain ⟨w, h1, h2, h3, h4⟩ := assign_gen (d := O.dflt) (x := VObj.ofList b) (y := VObj.ofList c) (t := c) rfl (le_refl _) (by
      rintro _ ⟨⟩
      show c.length ≤ b.length
      rw [hc.1, hb.1]
      exact hk)
    rw [h1, ok_bind]
    obtain ⟨w', h1', h2', h3', h4'⟩ := assign_gen (d := O.dflt) (x := VObj.empty) (y := ⟨some w, (VObj.ofList c).num_elements⟩) (t := w) rfl h3 (by rintro s ⟨⟩)
    rw [h1', ok_bind]
    have hw : w' = c := by
      have h2' : w'.take c.length = w.take c.length := h2'
      have h2 : w.take c.length = c.take c.length := h2
      have h4' : w'.length = c.length := h4'
      rw [h2, List.take_length, ← h4', List.take_length] at h2'
      exact h2'
    subst hw
    have : VObj.value (α := α) ⟨some w', (VObj.ofList w').num_elements⟩ = some w' := vv
    dsimp only
    rw [this]
  refine ⟨fun hk => ?_, fun hk => ?_, fun hk => ?_⟩
  · rw [e1, Props.TM.C49_tvector_violated O.dflt (x := VObj.ofList b) (s := b) c rfl (by rw [hb.1, hc.1]; exact hk)]
    rfl
  · rw [e2 hk.le]
    unfold TVec.eq
    rw [if_pos (by rw [hsr.1, hc.1]; omega)]
    rfl
  · subst hk
    rw [e2 (le_refl _)]
    obtain ⟨r, hr, hrr⟩ := sat_false.1 (veq_sat H hsr hc)
    rw [hr]
    refine ⟨_, rfl, _, rfl, by cases r <;> simp, ?_⟩
    rw [show (x + y = z) = ((fun i => x i + y i) = z) from rfl, ← hrr]
    cases r <;> simp

end ops
end Spffl.Expr
