import Verif.Model.TreeArith
import Verif.Model.Quantile
import Verif.Model.OneHot
import Mathlib.Algebra.Order.Floor.Ring

/-!
# Model of the conformal wrapper

Mirrors `/repo/parametricmatrixmodels/conformal/conformalizedmodel.py`: `get_qhat` (1125-1197), `__call__` (1199-1374) and the parts of `calibrate` (217-814) that make
the scores and the bias corrections. An entry is a real number or `none` for "not a finite number". The predictions of the wrapped model and the uncertainty heuristic
enter as arrays. Simplifications: an infinite score is treated like NaN (a quantile of data with such a score is `none`); features have no NaN; levels are real numbers, so
that two of them are the same cache key exactly if they are equal.
-/

namespace Verif
namespace Conformal
open Tree Loss

/-- Trees of arrays (typing.py:102). -/
abbrev Arrs := Tree (NArr (Option ℝ))

/-! ### Quantiles of the scores -/

/-- A quantile of numbers of which some are not finite (conformalizedmodel.py:1172-1178). -/
noncomputable def quantO (xs : List (Option ℝ)) (q : ℝ) : Option ℝ := (xs.mapM id).bind fun l => Quantile.quant l q

/-- The column of an array over the first axis (conformalizedmodel.py:1172-1178). -/
def column {V : Type} (s : NArr V) (i : List Nat) : List V := (List.range (s.shape.headD 0)).map fun k => s.val (k :: i)

/-- `np.quantile(s, q, axis=0)` (conformalizedmodel.py:1172-1176) for one level. -/
noncomputable def quantLeaf (q : ℝ) (s : NArr (Option ℝ)) : NArr (Option ℝ) := ⟨s.shape.tail, fun i => quantO (column s i) q⟩

/-- The level for `n` scores (conformalizedmodel.py:1174). -/
noncomputable def level (n : Nat) (α : ℝ) : ℝ := ⌈((n : ℝ) + 1) * (1 - α)⌉ / n

/-- The number of calibration samples (conformalizedmodel.py:1168). -/
def samples (scores : Arrs) : Except PyErr Nat :=
  match jaxLeaves scores with
  | [] => .error .indexError
  | s :: _ => match s.shape with
    | [] => .error .indexError
    | n :: _ => .ok n

/-- The quantile tree for one `α` (conformalizedmodel.py:1168-1185). -/
noncomputable def quantTree (scores : Arrs) (n : Nat) (α : ℝ) : Arrs := map (quantLeaf (level n α)) scores.norm

/-- The wrapper: scores (`None` before calibration) and the dictionary of computed quantiles (conformalizedmodel.py:180-182). -/
structure State where
  scores : Option Arrs
  cache : ℝ → Option Arrs

open scoped Classical in
/-- Storing the new quantiles (conformalizedmodel.py:1187-1188). -/
noncomputable def store (f : ℝ → Arrs) : List ℝ → (ℝ → Option Arrs) → ℝ → Option Arrs
  | [], c => c
  | a :: as, c => store f as (Function.update c a (some (f a)))

/-- `get_qhat` (conformalizedmodel.py:1125-1197) for a list of levels. (A list with one quantile is returned as the bare quantile.) -/
noncomputable def getQhat (st : State) (alphas : List ℝ) : Except PyErr (List Arrs × State) :=
  open scoped Classical in
  if alphas.any (fun a => decide (a ≤ 0 ∨ 1 ≤ a)) then .error .valueError
  else match st.scores with
    | Option.none => .error .valueError
    | some scores =>
      let new := alphas.filter fun a => (st.cache a).isNone
      if new = [] then .ok (alphas.map fun a => (st.cache a).getD .none, st)
      else match samples scores with
        | .error e => .error e
        | .ok n =>
          .ok (alphas.map fun a => (st.cache a).getD (quantTree scores n a), { st with cache := store (quantTree scores n) new st.cache })

/-! ### Prediction -/

/-- The interval around the (corrected) prediction for one quantile (conformalizedmodel.py:1352-1369). -/
noncomputable def interval (Y u q : Arrs) : Except PyErr (Arrs × Arrs) :=
  match TreeArith.mul q u with
  | .error e => .error e
  | .ok w => match TreeArith.sub Y w with
    | .error e => .error e
    | .ok lo => match TreeArith.add Y w with
      | .error e => .error e
      | .ok hi => .ok (lo, hi)

/-! ### Bias corrections -/

/-- The stratification features of sample `k` (conformalizedmodel.py:1285-1299): the flagged arrays flattened, one after the other. -/
def strataRow (pairs : List (NArr ℝ × Bool)) (k : Nat) : List ℝ :=
  pairs.flatMap fun p => if p.2 then OneHot.row p.1 k else []

/-- An array with its flag (conformalizedmodel.py:487-491). -/
def flagLeaf (x : NArr ℝ) (us : List (Tree Bool)) : Except PyErr (Tree (NArr ℝ × Bool)) :=
  match us with
  | [.leaf f] => .ok (.leaf (x, f))
  | _ => .error .valueError

/-- `X_strata_features_flat` (conformalizedmodel.py:484-497, 1285-1299): one row per sample. The trees must have the same structure and the arrays the same number
of samples. (The code broadcasts features of different widths; here rows of different lengths are different.) -/
def strataRows (flags : Tree Bool) (X : Tree (NArr ℝ)) : Except PyErr (List (List ℝ)) :=
  match jaxMap flagLeaf X [flags] with
  | .error e => .error e
  | .ok t =>
    let pairs := jaxLeaves t
    match pairs with
    | [] => .error .valueError
    | p :: _ =>
      if pairs.all fun q => decide (q.1.shape.head? = p.1.shape.head?) && decide (q.1.shape ≠ []) then
        .ok ((List.range (p.1.shape.headD 0)).map (strataRow pairs))
      else .error .typeError

open scoped Classical in
/-- The stratum of a sample (conformalizedmodel.py:502-515, 1302-1314): the first equal row, or the number of rows. -/
noncomputable def stratum (table : List (List ℝ)) (r : List ℝ) : Nat := table.findIdx fun v => decide (v = r)

/-- `np.median(y, axis=0)` of some samples of `y` (conformalizedmodel.py:536, 572): the 0.5-quantile. -/
noncomputable def medianOf (y : NArr (Option ℝ)) (ks : List Nat) (i : List Nat) : Option ℝ := quantO (ks.map fun k => y.val (k :: i)) (1 / 2)

/-- The biases of one array of residuals (conformalizedmodel.py:532-544): the medians of the strata and a final `[0.0]`. `np.array` stacks them only if the median of a
sample has shape `(1,)`. -/
noncomputable def strataBias (strata : List Nat) (m : Nat) (y : NArr (Option ℝ)) : Except PyErr (NArr (Option ℝ)) :=
  match y.shape with
  | [n, 1] => .ok ⟨[m + 1, 1], fun i =>
      if i.headD 0 < m then medianOf y ((List.range n).filter fun k => decide (strata.getD k m = i.headD 0)) i.tail else some 0⟩
  | _ => if m = 0 then .ok ⟨[1, 1], fun _ => some 0⟩ else .error .valueError

/-- `bias[idxs]` (conformalizedmodel.py:795, 1316). -/
def takeRows (idxs : List Nat) (b : NArr (Option ℝ)) : NArr (Option ℝ) :=
  ⟨idxs.length :: b.shape.tail, fun i => b.val (idxs.getD (i.headD 0) 0 :: i.tail)⟩

/-- The stored result of the stratified calibration (conformalizedmodel.py:475-573). -/
structure Strata where
  table : List (List ℝ)
  biases : Arrs

/-- The stratified part of `calibrate` (conformalizedmodel.py:475-547): `residuals` are `Y_cal - Y_cal_pred`. -/
noncomputable def fitStrata (flags : Tree Bool) (X : Tree (NArr ℝ)) (residuals : Arrs) : Except PyErr Strata :=
  match strataRows flags X with
  | .error e => .error e
  | .ok rows =>
    let table := OneHot.uniq rows
    match mapM (fun y => match strataBias (rows.map (stratum table)) table.length y with
        | .ok b => .ok (.leaf b)
        | .error e => .error e) residuals.norm with
    | .error e => .error e
    | .ok b => .ok ⟨table, b⟩

/-- The stratified correction of a prediction (conformalizedmodel.py:1272-1321). -/
noncomputable def applyStrata (flags : Tree Bool) (st : Strata) (X : Tree (NArr ℝ)) (Y : Arrs) : Except PyErr Arrs :=
  match strataRows flags X with
  | .error e => .error e
  | .ok rows => TreeArith.add Y (map (takeRows (rows.map (stratum st.table))) st.biases.norm)

/-- The global bias (conformalizedmodel.py:549-573): the median residual of every output. -/
noncomputable def fitGlobal (residuals : Arrs) : Arrs := map (quantLeaf (1 / 2)) residuals.norm

/-- The scores (conformalizedmodel.py:808-814) from targets, corrected predictions and the heuristic. -/
noncomputable def scoresOf (Y Yp u : Arrs) : Except PyErr Arrs :=
  match TreeArith.sub Y Yp with
  | .error e => .error e
  | .ok r => TreeArith.div (TreeArith.abs r) u

/-- The effect of a successful `calibrate` on the scores (conformalizedmodel.py:814). The dictionary of quantiles is left as it is. -/
def calibrated (st : State) (scores : Arrs) : State := { st with scores := some scores }

/-- The prediction with the global correction, if there is one (conformalizedmodel.py:787-806, 1272-1334). -/
noncomputable def correct (bias : Option Arrs) (Yp : Arrs) : Except PyErr Arrs :=
  match bias with
  | Option.none => .ok Yp
  | some b => TreeArith.add Yp b

/-- `calibrate` of a new wrapper without stratified corrections (conformalizedmodel.py:475-573, 773-814) from targets, predictions and heuristic of the calibration data.
`bias` is the flag `stratified_bias_corrections`. -/
noncomputable def calibrate (bias : Bool) (Y Yp u : Arrs) : Except PyErr (Option Arrs × State) :=
  match TreeArith.sub Y Yp with
  | .error e => .error e
  | .ok r =>
    let b := if bias then some (fitGlobal r) else Option.none
    match correct b Yp with
    | .error e => .error e
    | .ok Yc => match scoresOf Y Yc u with
      | .error e => .error e
      | .ok s => .ok (b, ⟨some s, fun _ => Option.none⟩)

/-- The call for one level (conformalizedmodel.py:1258-1374) from prediction and heuristic of the data. -/
noncomputable def predict (c : Option Arrs × State) (Yp u : Arrs) (α : ℝ) : Except PyErr (Arrs × Arrs) :=
  match correct c.1 Yp with
  | .error e => .error e
  | .ok Yc => match getQhat c.2 [α] with
    | .error e => .error e
    | .ok (qs, _) => match qs with
      | [q] => interval Yc u q
      | _ => .error .typeError

/-- `calibrate` of a new wrapper whose flag `stratified_bias_corrections` is a tree (conformalizedmodel.py:475-547, 773-814) from features, targets, predictions and heuristic of the
calibration data. If nothing is flagged there is no correction. (The strata of the calibration samples, computed once in the code, are computed again here.) -/
noncomputable def calibrateStrata (flags : Tree Bool) (X : Tree (NArr ℝ)) (Y Yp u : Arrs) : Except PyErr (Option Strata × State) :=
  if (jaxLeaves flags).any id then
    match TreeArith.sub Y Yp with
    | .error e => .error e
    | .ok r => match fitStrata flags X r with
      | .error e => .error e
      | .ok st => match applyStrata flags st X Yp with
        | .error e => .error e
        | .ok Yc => match scoresOf Y Yc u with
          | .error e => .error e
          | .ok s => .ok (some st, ⟨some s, fun _ => Option.none⟩)
  else match scoresOf Y Yp u with
    | .error e => .error e
    | .ok s => .ok (Option.none, ⟨some s, fun _ => Option.none⟩)

/-- The call of such a wrapper for one level (conformalizedmodel.py:1258-1374). -/
noncomputable def predictStrata (flags : Tree Bool) (c : Option Strata × State) (X : Tree (NArr ℝ)) (Yp u : Arrs) (α : ℝ) : Except PyErr (Arrs × Arrs) :=
  match (match c.1 with
    | some st => applyStrata flags st X Yp
    | Option.none => if (jaxLeaves flags).any id then .error .valueError else .ok Yp) with
  | .error e => .error e
  | .ok Yc => match getQhat c.2 [α] with
    | .error e => .error e
    | .ok (qs, _) => match qs with
      | [q] => interval Yc u q
      | _ => .error .typeError

end Conformal
end Verif
