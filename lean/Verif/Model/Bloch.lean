import Verif.Model.Assem
import Mathlib.Analysis.Complex.Exponential

/-!
# Model of `solidspy/blochutil.py`
-/

namespace SolidsPy
namespace Bloch

/-- One step of the loop of `reassign_dof_bloch`; the state is `(new_num, cont)`.
`/repo/solidspy/blochutil.py:49-59`. -/
def reassignStep (ima ref : List ℤ) (st : List ℤ × ℤ) (dof : ℕ) : Py (List ℤ × ℤ) :=
  if (dof : ℤ) ∈ ima then do
    let cont := st.2 + 1
    let r ← pyGet ref (ima.idxOf (dof : ℤ))
    if r < dof then pure (st.1 ++ [r], cont)
    else pure (st.1 ++ [r - cont], cont)
  else pure (st.1 ++ [(dof : ℤ) - st.2], st.2)

/-- `reassign_dof_bloch(ndofs, dofs_ima, dofs_ref)`.  `/repo/solidspy/blochutil.py:14-60`. -/
def reassignDof (ndofs : ℕ) (ima ref : List ℤ) : Py (List ℤ) := do
  let st ← (List.range ndofs).foldlM (reassignStep ima ref) ([], 0)
  pure st.1

/-- `np.dot(wavevector, pos_diff)`. -/
def dot (u v : List ℝ) : Py ℝ :=
  if u.length = v.length then .ok (List.zipWith (· * ·) u v).sum else .error .valueError

/-- Entries of one pair of nodes in the Bloch loop.  `/repo/solidspy/blochutil.py:183-191`. -/
noncomputable def blochPair (wave : List ℝ) (coords : List (List ℝ)) (refDof imaDof : ℤ → Option (List ℤ))
    (newNum : List ℤ) (pr : ℤ × ℤ) : Py (List (ℤ × ℤ × ℂ)) := do
  let ci ← pyGet coords pr.1
  let cr ← pyGet coords pr.2
  let ph ← dot wave (List.zipWith (· - ·) ci cr)
  let phase := Complex.exp (Complex.I * (ph : ℂ))
  let dr ← (match refDof pr.2 with | some l => .ok l | none => .error .keyError : Py (List ℤ))
  let di ← (match imaDof pr.1 with | some l => .ok l | none => .error .keyError : Py (List ℤ))
  (dr.zip di).mapM fun (c : ℤ × ℤ) => do
    let n ← pyGet newNum c.1
    pure (c.2, n, phase)

/-- Entries of the inner degrees of freedom.  `/repo/solidspy/blochutil.py:176-180`. -/
def innerEntries (ndofs : ℕ) (dofsIma newNum : List ℤ) : Py (List (ℤ × ℤ × ℂ)) :=
  ((List.range ndofs).filter fun (d : ℕ) => (d : ℤ) ∉ dofsIma).mapM fun (d : ℕ) => do
    let n ← pyGet newNum d
    pure ((d : ℤ), n, (1 : ℂ))

/-- `bloch_transform_mat(...)`.  `/repo/solidspy/blochutil.py:67-196`.
`ndofs - nconds` below zero is an invalid shape (`ValueError`). -/
noncomputable def blochTransformMat (wave : List ℝ) (coords : List (List ℝ)) (ndofs : ℕ)
    (nodesRef nodesIma dofsRef dofsIma : List ℤ) (refDof imaDof : ℤ → Option (List ℤ))
    (newNum : List ℤ) : Py (Matrix (Fin ndofs) (Fin (ndofs - dofsRef.length)) ℂ) := do
  let inner ← innerEntries ndofs dofsIma newNum
  let bl ← (nodesIma.zip nodesRef).mapM (blochPair wave coords refDof imaDof newNum)
  if ndofs < dofsRef.length then throw .valueError
  Assem.cooMatrix ndofs (ndofs - dofsRef.length) (inner ++ bl.flatten)

end Bloch
end SolidsPy
