import Verif.Model.Arc

/-!
# Geometric utilities that the scripts do not use

The default form of `quat2align` (utils.py:8-30) and the conjugate that the comment on planes mentions (gcodes.py:866-874).
-/

namespace Pygcode

/-- `quat2align(to_align, with_this)` with its default `normalize=True` (utils.py:22-30). -/
noncomputable def quat2alignUnit (a b : V3) : Quat := quat2align a.normalized b.normalized

/-- `euclid3.Quaternion.conjugate` (gcodes.py:870, 874; not in /repo) -/
def Quat.conj (q : Quat) : Quat := ⟨q.w, -q.x, -q.y, -q.z⟩


end Pygcode
