import Verif.Basic

/-!
# Model of `solidspy/gaussutil.py`

The tables are copied digit by digit from the source (this file was generated from it); a decimal
literal denotes the exact rational number it writes, not the nearest double.
`pts` and `wts` of one rule are kept in two lists as in the source.
-/

namespace SolidsPy
namespace Gauss

/-- `gauss_1d(2)`, points.  `/repo/solidspy/gaussutil.py:37-38`. -/
def pts1d2 : List ℚ :=
  [-0.577350269189625764, 0.577350269189625764]
/-- `gauss_1d(2)`, weights.  `/repo/solidspy/gaussutil.py:37-38`. -/
def wts1d2 : List ℚ :=
  [1.00000000000000000, 1.00000000000000000]

/-- `gauss_1d(3)`, points.  `/repo/solidspy/gaussutil.py:40-42`. -/
def pts1d3 : List ℚ :=
  [-0.774596669241483377, 0, 0.774596669241483377]
/-- `gauss_1d(3)`, weights.  `/repo/solidspy/gaussutil.py:40-42`. -/
def wts1d3 : List ℚ :=
  [0.555555555555555556, 0.888888888888888889, 0.555555555555555556]

/-- `gauss_1d(4)`, points.  `/repo/solidspy/gaussutil.py:44-47`. -/
def pts1d4 : List ℚ :=
  [-0.861136311594052575, -0.339981043584856265, 0.339981043584856265,
   0.861136311594052575]
/-- `gauss_1d(4)`, weights.  `/repo/solidspy/gaussutil.py:44-47`. -/
def wts1d4 : List ℚ :=
  [0.347854845137453857, 0.652145154862546143, 0.652145154862546143,
   0.347854845137453857]

/-- `gauss_1d(5)`, points.  `/repo/solidspy/gaussutil.py:49-53`. -/
def pts1d5 : List ℚ :=
  [-0.906179845938663993, -0.538469310105683091, 0,
   0.538469310105683091, 0.906179845938663993]
/-- `gauss_1d(5)`, weights.  `/repo/solidspy/gaussutil.py:49-53`. -/
def wts1d5 : List ℚ :=
  [0.236926885056189088, 0.478628670499366468, 0.568888888888888889,
   0.478628670499366468, 0.236926885056189088]

/-- `gauss_1d(6)`, points.  `/repo/solidspy/gaussutil.py:55-60`. -/
def pts1d6 : List ℚ :=
  [-0.932469514203152028, -0.661209386466264514, -0.238619186083196909,
   0.238619186083196909, 0.661209386466264514, 0.932469514203152028]
/-- `gauss_1d(6)`, weights.  `/repo/solidspy/gaussutil.py:55-60`. -/
def wts1d6 : List ℚ :=
  [0.171324492379170345, 0.360761573048138608, 0.467913934572691047,
   0.467913934572691047, 0.360761573048138608, 0.171324492379170345]

/-- `gauss_1d(7)`, points.  `/repo/solidspy/gaussutil.py:62-68`. -/
def pts1d7 : List ℚ :=
  [-0.949107912342758525, -0.741531185599394440, -0.405845151377397167,
   0, 0.405845151377397167, 0.741531185599394440,
   0.949107912342758525]
/-- `gauss_1d(7)`, weights.  `/repo/solidspy/gaussutil.py:62-68`. -/
def wts1d7 : List ℚ :=
  [0.129484966168869693, 0.279705391489276668, 0.381830050505118945,
   0.417959183673469388, 0.381830050505118945, 0.279705391489276668,
   0.129484966168869693]

/-- `gauss_1d(8)`, points.  `/repo/solidspy/gaussutil.py:70-77`. -/
def pts1d8 : List ℚ :=
  [-0.960289856497536232, -0.796666477413626740, -0.525532409916328986,
   -0.183434642495649805, 0.183434642495649805, 0.525532409916328986,
   0.796666477413626740, 0.960289856497536232]
/-- `gauss_1d(8)`, weights.  `/repo/solidspy/gaussutil.py:70-77`. -/
def wts1d8 : List ℚ :=
  [0.101228536290376259, 0.222381034453374471, 0.313706645877887287,
   0.362683783378361983, 0.362683783378361983, 0.313706645877887287,
   0.222381034453374471, 0.101228536290376259]

/-- `gauss_1d(9)`, points.  `/repo/solidspy/gaussutil.py:79-87`. -/
def pts1d9 : List ℚ :=
  [-0.968160239507626090, -0.836031107326635794, -0.613371432700590397,
   -0.324253423403808929, 0, 0.324253423403808929,
   0.613371432700590397, 0.836031107326635794, 0.968160239507626090]
/-- `gauss_1d(9)`, weights.  `/repo/solidspy/gaussutil.py:79-87`. -/
def wts1d9 : List ℚ :=
  [0.0812743883615744120, 0.180648160694857404, 0.260610696402935462,
   0.312347077040002840, 0.330239355001259763, 0.312347077040002840,
   0.260610696402935462, 0.180648160694857404, 0.0812743883615744120]

/-- `gauss_1d(10)`, points.  `/repo/solidspy/gaussutil.py:89-98`. -/
def pts1d10 : List ℚ :=
  [-0.973906528517171720, -0.865063366688984511, -0.679409568299024406,
   -0.433395394129247191, -0.148874338981631211, 0.148874338981631211,
   0.433395394129247191, 0.679409568299024406, 0.865063366688984511,
   0.973906528517171720]
/-- `gauss_1d(10)`, weights.  `/repo/solidspy/gaussutil.py:89-98`. -/
def wts1d10 : List ℚ :=
  [0.0666713443086881376, 0.149451349150580593, 0.219086362515982044,
   0.269266719309996355, 0.295524224714752870, 0.295524224714752870,
   0.269266719309996355, 0.219086362515982044, 0.149451349150580593,
   0.0666713443086881376]

/-- `gauss_1d(npts)`.  `/repo/solidspy/gaussutil.py:21-103`. -/
def gauss1d (npts : ℤ) : Py (List ℚ × List ℚ) :=
  match npts with
  | 2 => .ok (pts1d2, wts1d2)
  | 3 => .ok (pts1d3, wts1d3)
  | 4 => .ok (pts1d4, wts1d4)
  | 5 => .ok (pts1d5, wts1d5)
  | 6 => .ok (pts1d6, wts1d6)
  | 7 => .ok (pts1d7, wts1d7)
  | 8 => .ok (pts1d8, wts1d8)
  | 9 => .ok (pts1d9, wts1d9)
  | 10 => .ok (pts1d10, wts1d10)
  | _ => .error .valueError

/-- `itertools.product(l, repeat=n)`: tuples in lexicographic order, the last position fastest. -/
def prodRepeat {α : Type} (l : List α) : ℕ → List (List α)
  | 0 => [[]]
  | n + 1 => l.flatMap fun x => (prodRepeat l n).map (x :: ·)

/-- `gauss_nd(npts, ndim)`.  `/repo/solidspy/gaussutil.py:106-127`. -/
def gaussNd (npts : ℤ) (ndim : ℕ := 2) : Py (List (List ℚ) × List ℚ) := do
  let (pts, wts) ← gauss1d npts
  pure (prodRepeat pts ndim, (prodRepeat wts ndim).map List.prod)

/-- `gauss_tri` for `order == 1`, points.  `/repo/solidspy/gaussutil.py:147-148`. -/
def ptsTri1 : List (ℚ × ℚ) :=
  [(0.3333333333333, 0.3333333333333)]
/-- `gauss_tri` for `order == 1`, weights.  `/repo/solidspy/gaussutil.py:147-148`. -/
def wtsTri1 : List ℚ :=
  [1.0]

/-- `gauss_tri` for `order == 2`, points.  `/repo/solidspy/gaussutil.py:150-154`. -/
def ptsTri2 : List (ℚ × ℚ) :=
  [(0.1666666666667, 0.1666666666667), (0.6666666666667, 0.1666666666667),
   (0.1666666666667, 0.6666666666667)]
/-- `gauss_tri` for `order == 2`, weights.  `/repo/solidspy/gaussutil.py:150-154`. -/
def wtsTri2 : List ℚ :=
  [0.333333333333, 0.333333333333, 0.333333333333]

/-- `gauss_tri` for `order in [3, 4, 5]`, points.  `/repo/solidspy/gaussutil.py:156-167`. -/
def ptsTri3 : List (ℚ × ℚ) :=
  [(0.1012865073235, 0.1012865073235), (0.7974269853531, 0.1012865073235),
   (0.1012865073235, 0.7974269853531), (0.4701420641051, 0.0597158717898),
   (0.4701420641051, 0.4701420641051), (0.0597158717898, 0.4701420641051),
   (0.3333333333333, 0.3333333333333)]
/-- `gauss_tri` for `order in [3, 4, 5]`, weights.  `/repo/solidspy/gaussutil.py:156-167`. -/
def wtsTri3 : List ℚ :=
  [0.1259391805448, 0.1259391805448, 0.1259391805448, 0.1323941527885,
   0.1323941527885, 0.1323941527885, 0.225]

/-- `gauss_tri` for `order in [6, 7]`, points.  `/repo/solidspy/gaussutil.py:169-188`. -/
def ptsTri6 : List (ℚ × ℚ) :=
  [(0.0651301029022, 0.0651301029022), (0.8697397941956, 0.0651301029022),
   (0.0651301029022, 0.8697397941956), (0.3128654960049, 0.0486903154253),
   (0.6384441885698, 0.3128654960049), (0.0486903154253, 0.6384441885698),
   (0.6384441885698, 0.0486903154253), (0.3128654960049, 0.6384441885698),
   (0.0486903154253, 0.3128654960049), (0.2603459660790, 0.2603459660790),
   (0.4793080678413, 0.2603459660790), (0.2603459660790, 0.4793080678413),
   (0.3333333333333, 0.3333333333333)]
/-- `gauss_tri` for `order in [6, 7]`, weights.  `/repo/solidspy/gaussutil.py:169-188`. -/
def wtsTri6 : List ℚ :=
  [0.0533472356088, 0.0533472356088, 0.0533472356088, 0.0771137608903,
   0.0771137608903, 0.0771137608903, 0.0771137608903, 0.0771137608903,
   0.0771137608903, 0.1756152574332, 0.1756152574332, 0.1756152574332,
   -0.1495700444677]

/-- `gauss_tri(order)`.  `/repo/solidspy/gaussutil.py:130-192`. -/
def gaussTri (order : ℤ) : Py (List (ℚ × ℚ) × List ℚ) :=
  match order with
  | 1 => .ok (ptsTri1, wtsTri1)
  | 2 => .ok (ptsTri2, wtsTri2)
  | 3 => .ok (ptsTri3, wtsTri3)
  | 4 => .ok (ptsTri3, wtsTri3)
  | 5 => .ok (ptsTri3, wtsTri3)
  | 6 => .ok (ptsTri6, wtsTri6)
  | 7 => .ok (ptsTri6, wtsTri6)
  | _ => .error .valueError

/-- `gauss_tet` for `order == 1`, points.  `/repo/solidspy/gaussutil.py:219-220`. -/
def ptsTet1 : List (ℚ × ℚ × ℚ) :=
  [(0.25, 0.25, 0.25)]
/-- `gauss_tet` for `order == 1`, weights.  `/repo/solidspy/gaussutil.py:219-220`. -/
def wtsTet1 : List ℚ :=
  [1.0]

/-- `gauss_tet` for `order == 2`, points.  `/repo/solidspy/gaussutil.py:222-227`. -/
def ptsTet2 : List (ℚ × ℚ × ℚ) :=
  [(0.1381966011250105, 0.1381966011250105, 0.5854101966249684),
   (0.1381966011250105, 0.5854101966249684, 0.1381966011250105),
   (0.5854101966249684, 0.1381966011250105, 0.1381966011250105),
   (0.1381966011250105, 0.1381966011250105, 0.1381966011250105)]
/-- `gauss_tet` for `order == 2`, weights.  `/repo/solidspy/gaussutil.py:222-227`. -/
def wtsTet2 : List ℚ :=
  [0.25, 0.25, 0.25, 0.25]

/-- `gauss_tet` for `order == 3`, points.  `/repo/solidspy/gaussutil.py:229-241`. -/
def ptsTet3 : List (ℚ × ℚ × ℚ) :=
  [(0.3281633025163817, 0.3281633025163817, 0.0155100924508549),
   (0.1080472498984286, 0.1080472498984286, 0.6758582503047142),
   (0.3281633025163817, 0.0155100924508549, 0.3281633025163817),
   (0.1080472498984286, 0.6758582503047142, 0.1080472498984286),
   (0.0155100924508549, 0.3281633025163817, 0.3281633025163817),
   (0.6758582503047142, 0.1080472498984286, 0.1080472498984286),
   (0.3281633025163817, 0.3281633025163817, 0.3281633025163817),
   (0.1080472498984286, 0.1080472498984286, 0.1080472498984286)]
/-- `gauss_tet` for `order == 3`, weights.  `/repo/solidspy/gaussutil.py:229-241`. -/
def wtsTet3 : List ℚ :=
  [0.1362178425370874, 0.1137821574629126, 0.1362178425370874, 0.1137821574629126,
   0.1362178425370874, 0.1137821574629126, 0.1362178425370874, 0.1137821574629126]

/-- `gauss_tet` for `order in [4, 5]`, points.  `/repo/solidspy/gaussutil.py:243-263`. -/
def ptsTet4 : List (ℚ × ℚ × ℚ) :=
  [(0.3108859192633006, 0.3108859192633006, 0.0673422422100982),
   (0.0927352503108912, 0.0927352503108912, 0.7217942490673263),
   (0.3108859192633006, 0.0673422422100982, 0.3108859192633006),
   (0.0927352503108912, 0.7217942490673263, 0.0927352503108912),
   (0.0673422422100982, 0.3108859192633006, 0.3108859192633006),
   (0.7217942490673263, 0.0927352503108912, 0.0927352503108912),
   (0.3108859192633006, 0.3108859192633006, 0.3108859192633006),
   (0.0927352503108912, 0.0927352503108912, 0.0927352503108912),
   (0.0455037041256496, 0.4544962958743504, 0.4544962958743504),
   (0.4544962958743504, 0.0455037041256496, 0.4544962958743504),
   (0.0455037041256496, 0.0455037041256496, 0.4544962958743504),
   (0.4544962958743504, 0.4544962958743504, 0.0455037041256496),
   (0.0455037041256496, 0.4544962958743504, 0.0455037041256496),
   (0.4544962958743504, 0.0455037041256496, 0.0455037041256496)]
/-- `gauss_tet` for `order in [4, 5]`, weights.  `/repo/solidspy/gaussutil.py:243-263`. -/
def wtsTet4 : List ℚ :=
  [0.1126879257180159, 0.073493043116362, 0.1126879257180159, 0.073493043116362,
   0.1126879257180159, 0.073493043116362, 0.1126879257180159, 0.073493043116362,
   0.0425460207770815, 0.0425460207770815, 0.0425460207770815, 0.0425460207770815,
   0.0425460207770815, 0.0425460207770815]

/-- `gauss_tet` for `order == 6`, points.  `/repo/solidspy/gaussutil.py:265-298`. -/
def ptsTet6 : List (ℚ × ℚ × ℚ) :=
  [(0.0406739585346114, 0.0406739585346114, 0.8779781243961658),
   (0.3223378901422755, 0.3223378901422755, 0.0329863295731736),
   (0.214602871259152, 0.214602871259152, 0.356191386222544),
   (0.0406739585346114, 0.8779781243961658, 0.0406739585346114),
   (0.3223378901422755, 0.0329863295731736, 0.3223378901422755),
   (0.214602871259152, 0.356191386222544, 0.214602871259152),
   (0.8779781243961658, 0.0406739585346114, 0.0406739585346114),
   (0.0329863295731736, 0.3223378901422755, 0.3223378901422755),
   (0.356191386222544, 0.214602871259152, 0.214602871259152),
   (0.0406739585346114, 0.0406739585346114, 0.0406739585346114),
   (0.3223378901422755, 0.3223378901422755, 0.3223378901422755),
   (0.214602871259152, 0.214602871259152, 0.214602871259152),
   (0.0636610018750174, 0.6030056647916492, 0.2696723314583159),
   (0.6030056647916492, 0.0636610018750174, 0.2696723314583159),
   (0.0636610018750174, 0.0636610018750174, 0.2696723314583159),
   (0.6030056647916492, 0.2696723314583159, 0.0636610018750174),
   (0.0636610018750174, 0.2696723314583159, 0.0636610018750174),
   (0.2696723314583159, 0.0636610018750174, 0.0636610018750174),
   (0.0636610018750174, 0.2696723314583159, 0.6030056647916492),
   (0.2696723314583159, 0.0636610018750174, 0.6030056647916492),
   (0.0636610018750174, 0.0636610018750174, 0.6030056647916492),
   (0.2696723314583159, 0.6030056647916492, 0.0636610018750174),
   (0.0636610018750174, 0.6030056647916492, 0.0636610018750174),
   (0.6030056647916492, 0.0636610018750174, 0.0636610018750174)]
/-- `gauss_tet` for `order == 6`, weights.  `/repo/solidspy/gaussutil.py:265-298`. -/
def wtsTet6 : List ℚ :=
  [0.0100772110553206, 0.0553571815436547, 0.0399227502581675, 0.0100772110553206,
   0.0553571815436547, 0.0399227502581675, 0.0100772110553206, 0.0553571815436547,
   0.0399227502581675, 0.0100772110553206, 0.0553571815436547, 0.0399227502581675,
   0.0482142857142857, 0.0482142857142857, 0.0482142857142857, 0.0482142857142857,
   0.0482142857142857, 0.0482142857142857, 0.0482142857142857, 0.0482142857142857,
   0.0482142857142857, 0.0482142857142857, 0.0482142857142857, 0.0482142857142857]

/-- `gauss_tet` for `order == 7`, points.  `/repo/solidspy/gaussutil.py:300-348`. -/
def ptsTet7 : List (ℚ × ℚ × ℚ) :=
  [(0.25, 0.25, 0.25),
   (0.3157011497782028, 0.3157011497782028, 0.0528965506653916),
   (0.3157011497782028, 0.0528965506653916, 0.3157011497782028),
   (0.0528965506653916, 0.3157011497782028, 0.3157011497782028),
   (0.3157011497782028, 0.3157011497782028, 0.3157011497782028),
   (0.0504898225983964, 0.4495101774016036, 0.4495101774016036),
   (0.4495101774016036, 0.0504898225983964, 0.4495101774016036),
   (0.0504898225983964, 0.0504898225983964, 0.4495101774016036),
   (0.4495101774016036, 0.4495101774016036, 0.0504898225983964),
   (0.0504898225983964, 0.4495101774016036, 0.0504898225983964),
   (0.4495101774016036, 0.0504898225983964, 0.0504898225983964),
   (0.188833831026001, 0.575171637587, 0.0471607003609981),
   (0.0212654725414831, 0.8108302410985486, 0.1466388138184851),
   (0.575171637587, 0.188833831026001, 0.0471607003609981),
   (0.8108302410985486, 0.0212654725414831, 0.1466388138184851),
   (0.188833831026001, 0.188833831026001, 0.0471607003609981),
   (0.0212654725414831, 0.0212654725414831, 0.1466388138184851),
   (0.575171637587, 0.0471607003609981, 0.188833831026001),
   (0.8108302410985486, 0.1466388138184851, 0.0212654725414831),
   (0.188833831026001, 0.0471607003609981, 0.188833831026001),
   (0.0212654725414831, 0.1466388138184851, 0.0212654725414831),
   (0.0471607003609981, 0.188833831026001, 0.188833831026001),
   (0.1466388138184851, 0.0212654725414831, 0.0212654725414831),
   (0.188833831026001, 0.0471607003609981, 0.575171637587),
   (0.0212654725414831, 0.1466388138184851, 0.8108302410985486),
   (0.0471607003609981, 0.188833831026001, 0.575171637587),
   (0.1466388138184851, 0.0212654725414831, 0.8108302410985486),
   (0.188833831026001, 0.188833831026001, 0.575171637587),
   (0.0212654725414831, 0.0212654725414831, 0.8108302410985486),
   (0.0471607003609981, 0.575171637587, 0.188833831026001),
   (0.1466388138184851, 0.8108302410985486, 0.0212654725414831),
   (0.188833831026001, 0.575171637587, 0.188833831026001),
   (0.0212654725414831, 0.8108302410985486, 0.0212654725414831),
   (0.575171637587, 0.188833831026001, 0.188833831026001),
   (0.8108302410985486, 0.0212654725414831, 0.0212654725414831)]
/-- `gauss_tet` for `order == 7`, weights.  `/repo/solidspy/gaussutil.py:300-348`. -/
def wtsTet7 : List ℚ :=
  [0.0954852894641308, 0.042329581209967, 0.042329581209967, 0.042329581209967,
   0.042329581209967, 0.0318969278328576, 0.0318969278328576, 0.0318969278328576,
   0.0318969278328576, 0.0318969278328576, 0.0318969278328576, 0.0372071307283346,
   0.0081107708299033, 0.0372071307283346, 0.0081107708299033, 0.0372071307283346,
   0.0081107708299033, 0.0372071307283346, 0.0081107708299033, 0.0372071307283346,
   0.0081107708299033, 0.0372071307283346, 0.0081107708299033, 0.0372071307283346,
   0.0081107708299033, 0.0372071307283346, 0.0081107708299033, 0.0372071307283346,
   0.0081107708299033, 0.0372071307283346, 0.0081107708299033, 0.0372071307283346,
   0.0081107708299033, 0.0372071307283346, 0.0081107708299033]

/-- `gauss_tet` for `order == 8`, points.  `/repo/solidspy/gaussutil.py:350-413`. -/
def ptsTet8 : List (ℚ × ℚ × ℚ) :=
  [(0.1079527249622109, 0.1079527249622109, 0.6761418251133673),
   (0.1851094877825866, 0.1851094877825866, 0.4446715366522402),
   (0.0423165436847673, 0.0423165436847673, 0.8730503689456981),
   (0.314181709124039, 0.314181709124039, 0.0574548726278831),
   (0.1079527249622109, 0.6761418251133673, 0.1079527249622109),
   (0.1851094877825866, 0.4446715366522402, 0.1851094877825866),
   (0.0423165436847673, 0.8730503689456981, 0.0423165436847673),
   (0.314181709124039, 0.0574548726278831, 0.314181709124039),
   (0.6761418251133673, 0.1079527249622109, 0.1079527249622109),
   (0.4446715366522402, 0.1851094877825866, 0.1851094877825866),
   (0.8730503689456981, 0.0423165436847673, 0.0423165436847673),
   (0.0574548726278831, 0.314181709124039, 0.314181709124039),
   (0.1079527249622109, 0.1079527249622109, 0.1079527249622109),
   (0.1851094877825866, 0.1851094877825866, 0.1851094877825866),
   (0.0423165436847673, 0.0423165436847673, 0.0423165436847673),
   (0.314181709124039, 0.314181709124039, 0.314181709124039),
   (0.4355913285838302, 0.0644086714161698, 0.0644086714161698),
   (0.0644086714161698, 0.4355913285838302, 0.0644086714161698),
   (0.4355913285838302, 0.4355913285838302, 0.0644086714161698),
   (0.0644086714161698, 0.0644086714161698, 0.4355913285838302),
   (0.4355913285838302, 0.0644086714161698, 0.4355913285838302),
   (0.0644086714161698, 0.4355913285838302, 0.4355913285838302),
   (0.0214339301271306, 0.7174640634263083, 0.2396680763194305),
   (0.2041393338760291, 0.5837973783021444, 0.0079239539457974),
   (0.7174640634263083, 0.0214339301271306, 0.2396680763194305),
   (0.5837973783021444, 0.2041393338760291, 0.0079239539457974),
   (0.0214339301271306, 0.0214339301271306, 0.2396680763194305),
   (0.2041393338760291, 0.2041393338760291, 0.0079239539457974),
   (0.7174640634263083, 0.2396680763194305, 0.0214339301271306),
   (0.5837973783021444, 0.0079239539457974, 0.2041393338760291),
   (0.0214339301271306, 0.2396680763194305, 0.0214339301271306),
   (0.2041393338760291, 0.0079239539457974, 0.2041393338760291),
   (0.2396680763194305, 0.0214339301271306, 0.0214339301271306),
   (0.0079239539457974, 0.2041393338760291, 0.2041393338760291),
   (0.0214339301271306, 0.2396680763194305, 0.7174640634263083),
   (0.2041393338760291, 0.0079239539457974, 0.5837973783021444),
   (0.2396680763194305, 0.0214339301271306, 0.7174640634263083),
   (0.0079239539457974, 0.2041393338760291, 0.5837973783021444),
   (0.0214339301271306, 0.0214339301271306, 0.7174640634263083),
   (0.2041393338760291, 0.2041393338760291, 0.5837973783021444),
   (0.2396680763194305, 0.7174640634263083, 0.0214339301271306),
   (0.0079239539457974, 0.5837973783021444, 0.2041393338760291),
   (0.0214339301271306, 0.7174640634263083, 0.0214339301271306),
   (0.2041393338760291, 0.5837973783021444, 0.2041393338760291),
   (0.7174640634263083, 0.0214339301271306, 0.0214339301271306),
   (0.5837973783021444, 0.2041393338760291, 0.2041393338760291)]
/-- `gauss_tet` for `order == 8`, weights.  `/repo/solidspy/gaussutil.py:350-413`. -/
def wtsTet8 : List ℚ :=
  [0.0264266509084088, 0.0520317475637385, 0.0075252561535402, 0.0417637828569349,
   0.0264266509084088, 0.0520317475637385, 0.0075252561535402, 0.0417637828569349,
   0.0264266509084088, 0.0520317475637385, 0.0075252561535402, 0.0417637828569349,
   0.0264266509084088, 0.0520317475637385, 0.0075252561535402, 0.0417637828569349,
   0.0362809302613088, 0.0362809302613088, 0.0362809302613088, 0.0362809302613088,
   0.0362809302613088, 0.0362809302613088, 0.0071569028908444, 0.0154534861509603,
   0.0071569028908444, 0.0154534861509603, 0.0071569028908444, 0.0154534861509603,
   0.0071569028908444, 0.0154534861509603, 0.0071569028908444, 0.0154534861509603,
   0.0071569028908444, 0.0154534861509603, 0.0071569028908444, 0.0154534861509603,
   0.0071569028908444, 0.0154534861509603, 0.0071569028908444, 0.0154534861509603,
   0.0071569028908444, 0.0154534861509603, 0.0071569028908444, 0.0154534861509603,
   0.0071569028908444, 0.0154534861509603]

/-- `gauss_tet` for `order == 9`, points.  `/repo/solidspy/gaussutil.py:415-564`. -/
def ptsTet9 : List (ℚ × ℚ × ℚ) :=
  [(2.5000000000000000e-01, 2.5000000000000000e-01, 2.5000000000000000e-01),
   (6.1981697552226933e-10, 6.1981697552226933e-10, 9.9999999814054907e-01),
   (1.6077453539526160e-01, 1.6077453539526160e-01, 5.1767639381421526e-01),
   (3.2227652182142102e-01, 3.2227652182142102e-01, 3.3170434535736870e-02),
   (4.5108918345413578e-02, 4.5108918345413578e-02, 8.6467324496375930e-01),
   (6.1981697552226933e-10, 9.9999999814054907e-01, 6.1981697552226933e-10),
   (1.6077453539526160e-01, 5.1767639381421526e-01, 1.6077453539526160e-01),
   (3.2227652182142102e-01, 3.3170434535736870e-02, 3.2227652182142102e-01),
   (4.5108918345413578e-02, 8.6467324496375930e-01, 4.5108918345413578e-02),
   (9.9999999814054907e-01, 6.1981697552226933e-10, 6.1981697552226933e-10),
   (5.1767639381421526e-01, 1.6077453539526160e-01, 1.6077453539526160e-01),
   (3.3170434535736870e-02, 3.2227652182142102e-01, 3.2227652182142102e-01),
   (8.6467324496375930e-01, 4.5108918345413578e-02, 4.5108918345413578e-02),
   (6.1981697552226933e-10, 6.1981697552226933e-10, 6.1981697552226933e-10),
   (1.6077453539526160e-01, 1.6077453539526160e-01, 1.6077453539526160e-01),
   (3.2227652182142102e-01, 3.2227652182142102e-01, 3.2227652182142102e-01),
   (4.5108918345413578e-02, 4.5108918345413578e-02, 4.5108918345413578e-02),
   (1.1229654600437609e-01, 3.8770345399562389e-01, 3.8770345399562389e-01),
   (3.8770345399562389e-01, 1.1229654600437609e-01, 3.8770345399562389e-01),
   (1.1229654600437609e-01, 1.1229654600437609e-01, 3.8770345399562389e-01),
   (3.8770345399562389e-01, 3.8770345399562389e-01, 1.1229654600437609e-01),
   (1.1229654600437609e-01, 3.8770345399562389e-01, 1.1229654600437609e-01),
   (3.8770345399562389e-01, 1.1229654600437609e-01, 1.1229654600437609e-01),
   (4.5887144875245922e-01, 2.5545792330413102e-03, 7.9702523262040248e-02),
   (3.3775870685338598e-02, 7.1835032644207453e-01, 2.1409793218724826e-01),
   (1.8364136980992790e-01, 3.4415910578175279e-02, 5.9830134980196892e-01),
   (2.5545792330413102e-03, 4.5887144875245922e-01, 7.9702523262040248e-02),
   (7.1835032644207453e-01, 3.3775870685338598e-02, 2.1409793218724826e-01),
   (3.4415910578175279e-02, 1.8364136980992790e-01, 5.9830134980196892e-01),
   (4.5887144875245922e-01, 4.5887144875245922e-01, 7.9702523262040248e-02),
   (3.3775870685338598e-02, 3.3775870685338598e-02, 2.1409793218724826e-01),
   (1.8364136980992790e-01, 1.8364136980992790e-01, 5.9830134980196892e-01),
   (2.5545792330413102e-03, 7.9702523262040248e-02, 4.5887144875245922e-01),
   (7.1835032644207453e-01, 2.1409793218724826e-01, 3.3775870685338598e-02),
   (3.4415910578175279e-02, 5.9830134980196892e-01, 1.8364136980992790e-01),
   (4.5887144875245922e-01, 7.9702523262040248e-02, 4.5887144875245922e-01),
   (3.3775870685338598e-02, 2.1409793218724826e-01, 3.3775870685338598e-02),
   (1.8364136980992790e-01, 5.9830134980196892e-01, 1.8364136980992790e-01),
   (7.9702523262040248e-02, 4.5887144875245922e-01, 4.5887144875245922e-01),
   (2.1409793218724826e-01, 3.3775870685338598e-02, 3.3775870685338598e-02),
   (5.9830134980196892e-01, 1.8364136980992790e-01, 1.8364136980992790e-01),
   (4.5887144875245922e-01, 7.9702523262040248e-02, 2.5545792330413102e-03),
   (3.3775870685338598e-02, 2.1409793218724826e-01, 7.1835032644207453e-01),
   (1.8364136980992790e-01, 5.9830134980196892e-01, 3.4415910578175279e-02),
   (7.9702523262040248e-02, 4.5887144875245922e-01, 2.5545792330413102e-03),
   (2.1409793218724826e-01, 3.3775870685338598e-02, 7.1835032644207453e-01),
   (5.9830134980196892e-01, 1.8364136980992790e-01, 3.4415910578175279e-02),
   (4.5887144875245922e-01, 4.5887144875245922e-01, 2.5545792330413102e-03),
   (3.3775870685338598e-02, 3.3775870685338598e-02, 7.1835032644207453e-01),
   (1.8364136980992790e-01, 1.8364136980992790e-01, 3.4415910578175279e-02),
   (7.9702523262040248e-02, 2.5545792330413102e-03, 4.5887144875245922e-01),
   (2.1409793218724826e-01, 7.1835032644207453e-01, 3.3775870685338598e-02),
   (5.9830134980196892e-01, 3.4415910578175279e-02, 1.8364136980992790e-01),
   (4.5887144875245922e-01, 2.5545792330413102e-03, 4.5887144875245922e-01),
   (3.3775870685338598e-02, 7.1835032644207453e-01, 3.3775870685338598e-02),
   (1.8364136980992790e-01, 3.4415910578175279e-02, 1.8364136980992790e-01),
   (2.5545792330413102e-03, 4.5887144875245922e-01, 4.5887144875245922e-01),
   (7.1835032644207453e-01, 3.3775870685338598e-02, 3.3775870685338598e-02),
   (3.4415910578175279e-02, 1.8364136980992790e-01, 1.8364136980992790e-01)]
/-- `gauss_tet` for `order == 9`, weights.  `/repo/solidspy/gaussutil.py:415-564`. -/
def wtsTet9 : List ℚ :=
  [5.801054891248025e-02, 6.431928175925639e-05, 2.317333846242546e-02, 2.956291233542929e-02,
   8.063979979616182e-03, 6.431928175925639e-05, 2.317333846242546e-02, 2.956291233542929e-02,
   8.063979979616182e-03, 6.431928175925639e-05, 2.317333846242546e-02, 2.956291233542929e-02,
   8.063979979616182e-03, 6.431928175925639e-05, 2.317333846242546e-02, 2.956291233542929e-02,
   8.063979979616182e-03, 3.813408010370246e-02, 3.813408010370246e-02, 3.813408010370246e-02,
   3.813408010370246e-02, 3.813408010370246e-02, 3.813408010370246e-02, 8.384422198298552e-03,
   1.023455935274533e-02, 2.052491596798814e-02, 8.384422198298552e-03, 1.023455935274533e-02,
   2.052491596798814e-02, 8.384422198298552e-03, 1.023455935274533e-02, 2.052491596798814e-02,
   8.384422198298552e-03, 1.023455935274533e-02, 2.052491596798814e-02, 8.384422198298552e-03,
   1.023455935274533e-02, 2.052491596798814e-02, 8.384422198298552e-03, 1.023455935274533e-02,
   2.052491596798814e-02, 8.384422198298552e-03, 1.023455935274533e-02, 2.052491596798814e-02,
   8.384422198298552e-03, 1.023455935274533e-02, 2.052491596798814e-02, 8.384422198298552e-03,
   1.023455935274533e-02, 2.052491596798814e-02, 8.384422198298552e-03, 1.023455935274533e-02,
   2.052491596798814e-02, 8.384422198298552e-03, 1.023455935274533e-02, 2.052491596798814e-02,
   8.384422198298552e-03, 1.023455935274533e-02, 2.052491596798814e-02]

/-- `gauss_tet` for `order == 10`, points.  `/repo/solidspy/gaussutil.py:566-675`. -/
def ptsTet10 : List (ℚ × ℚ × ℚ) :=
  [(0.25, 0.25, 0.25),
   (0.3122500686951887, 0.3122500686951887, 0.063249793914434),
   (0.1143096538573461, 0.1143096538573461, 0.6570710384279617),
   (0.3122500686951887, 0.063249793914434, 0.3122500686951887),
   (0.1143096538573461, 0.6570710384279617, 0.1143096538573461),
   (0.063249793914434, 0.3122500686951887, 0.3122500686951887),
   (0.6570710384279617, 0.1143096538573461, 0.1143096538573461),
   (0.3122500686951887, 0.3122500686951887, 0.3122500686951887),
   (0.1143096538573461, 0.1143096538573461, 0.1143096538573461),
   (0.4104307392189654, 0.1654860256196111, 0.0136524959424581),
   (0.0061380088247907, 0.9429887673452049, 0.0447352150052138),
   (0.1210501811455894, 0.4771903799042804, 0.2807092578045408),
   (0.0327794682164426, 0.594256269480007, 0.3401847940871078),
   (0.032485281564823, 0.8011772846583444, 0.1338521522120095),
   (0.174979342183939, 0.628071845475366, 0.021969470156756),
   (0.1654860256196111, 0.4104307392189654, 0.0136524959424581),
   (0.9429887673452049, 0.0061380088247907, 0.0447352150052138),
   (0.4771903799042804, 0.1210501811455894, 0.2807092578045408),
   (0.594256269480007, 0.0327794682164426, 0.3401847940871078),
   (0.8011772846583444, 0.032485281564823, 0.1338521522120095),
   (0.628071845475366, 0.174979342183939, 0.021969470156756),
   (0.4104307392189654, 0.4104307392189654, 0.0136524959424581),
   (0.0061380088247907, 0.0061380088247907, 0.0447352150052138),
   (0.1210501811455894, 0.1210501811455894, 0.2807092578045408),
   (0.0327794682164426, 0.0327794682164426, 0.3401847940871078),
   (0.032485281564823, 0.032485281564823, 0.1338521522120095),
   (0.174979342183939, 0.174979342183939, 0.021969470156756),
   (0.1654860256196111, 0.0136524959424581, 0.4104307392189654),
   (0.9429887673452049, 0.0447352150052138, 0.0061380088247907),
   (0.4771903799042804, 0.2807092578045408, 0.1210501811455894),
   (0.594256269480007, 0.3401847940871078, 0.0327794682164426),
   (0.8011772846583444, 0.1338521522120095, 0.032485281564823),
   (0.628071845475366, 0.021969470156756, 0.174979342183939),
   (0.4104307392189654, 0.0136524959424581, 0.4104307392189654),
   (0.0061380088247907, 0.0447352150052138, 0.0061380088247907),
   (0.1210501811455894, 0.2807092578045408, 0.1210501811455894),
   (0.0327794682164426, 0.3401847940871078, 0.0327794682164426),
   (0.032485281564823, 0.1338521522120095, 0.032485281564823),
   (0.174979342183939, 0.021969470156756, 0.174979342183939),
   (0.0136524959424581, 0.4104307392189654, 0.4104307392189654),
   (0.0447352150052138, 0.0061380088247907, 0.0061380088247907),
   (0.2807092578045408, 0.1210501811455894, 0.1210501811455894),
   (0.3401847940871078, 0.0327794682164426, 0.0327794682164426),
   (0.1338521522120095, 0.032485281564823, 0.032485281564823),
   (0.021969470156756, 0.174979342183939, 0.174979342183939),
   (0.4104307392189654, 0.0136524959424581, 0.1654860256196111),
   (0.0061380088247907, 0.0447352150052138, 0.9429887673452049),
   (0.1210501811455894, 0.2807092578045408, 0.4771903799042804),
   (0.0327794682164426, 0.3401847940871078, 0.594256269480007),
   (0.032485281564823, 0.1338521522120095, 0.8011772846583444),
   (0.174979342183939, 0.021969470156756, 0.628071845475366),
   (0.0136524959424581, 0.4104307392189654, 0.1654860256196111),
   (0.0447352150052138, 0.0061380088247907, 0.9429887673452049),
   (0.2807092578045408, 0.1210501811455894, 0.4771903799042804),
   (0.3401847940871078, 0.0327794682164426, 0.594256269480007),
   (0.1338521522120095, 0.032485281564823, 0.8011772846583444),
   (0.021969470156756, 0.174979342183939, 0.628071845475366),
   (0.4104307392189654, 0.4104307392189654, 0.1654860256196111),
   (0.0061380088247907, 0.0061380088247907, 0.9429887673452049),
   (0.1210501811455894, 0.1210501811455894, 0.4771903799042804),
   (0.0327794682164426, 0.0327794682164426, 0.594256269480007),
   (0.032485281564823, 0.032485281564823, 0.8011772846583444),
   (0.174979342183939, 0.174979342183939, 0.628071845475366),
   (0.0136524959424581, 0.1654860256196111, 0.4104307392189654),
   (0.0447352150052138, 0.9429887673452049, 0.0061380088247907),
   (0.2807092578045408, 0.4771903799042804, 0.1210501811455894),
   (0.3401847940871078, 0.594256269480007, 0.0327794682164426),
   (0.1338521522120095, 0.8011772846583444, 0.032485281564823),
   (0.021969470156756, 0.628071845475366, 0.174979342183939),
   (0.4104307392189654, 0.1654860256196111, 0.4104307392189654),
   (0.0061380088247907, 0.9429887673452049, 0.0061380088247907),
   (0.1210501811455894, 0.4771903799042804, 0.1210501811455894),
   (0.0327794682164426, 0.594256269480007, 0.0327794682164426),
   (0.032485281564823, 0.8011772846583444, 0.032485281564823),
   (0.174979342183939, 0.628071845475366, 0.174979342183939),
   (0.1654860256196111, 0.4104307392189654, 0.4104307392189654),
   (0.9429887673452049, 0.0061380088247907, 0.0061380088247907),
   (0.4771903799042804, 0.1210501811455894, 0.1210501811455894),
   (0.594256269480007, 0.0327794682164426, 0.0327794682164426),
   (0.8011772846583444, 0.032485281564823, 0.032485281564823),
   (0.628071845475366, 0.174979342183939, 0.174979342183939)]
/-- `gauss_tet` for `order == 10`, weights.  `/repo/solidspy/gaussutil.py:566-675`. -/
def wtsTet10 : List ℚ :=
  [0.0473997735560207, 0.0269370599922687, 0.0098691597167934, 0.0269370599922687,
   0.0098691597167934, 0.0269370599922687, 0.0098691597167934, 0.0269370599922687,
   0.0098691597167934, 0.0113938812201952, 0.0003619443443393, 0.0257397319804561,
   0.0101358716797558, 0.0065761472770359, 0.012907035798862, 0.0113938812201952,
   0.0003619443443393, 0.0257397319804561, 0.0101358716797558, 0.0065761472770359,
   0.012907035798862, 0.0113938812201952, 0.0003619443443393, 0.0257397319804561,
   0.0101358716797558, 0.0065761472770359, 0.012907035798862, 0.0113938812201952,
   0.0003619443443393, 0.0257397319804561, 0.0101358716797558, 0.0065761472770359,
   0.012907035798862, 0.0113938812201952, 0.0003619443443393, 0.0257397319804561,
   0.0101358716797558, 0.0065761472770359, 0.012907035798862, 0.0113938812201952,
   0.0003619443443393, 0.0257397319804561, 0.0101358716797558, 0.0065761472770359,
   0.012907035798862, 0.0113938812201952, 0.0003619443443393, 0.0257397319804561,
   0.0101358716797558, 0.0065761472770359, 0.012907035798862, 0.0113938812201952,
   0.0003619443443393, 0.0257397319804561, 0.0101358716797558, 0.0065761472770359,
   0.012907035798862, 0.0113938812201952, 0.0003619443443393, 0.0257397319804561,
   0.0101358716797558, 0.0065761472770359, 0.012907035798862, 0.0113938812201952,
   0.0003619443443393, 0.0257397319804561, 0.0101358716797558, 0.0065761472770359,
   0.012907035798862, 0.0113938812201952, 0.0003619443443393, 0.0257397319804561,
   0.0101358716797558, 0.0065761472770359, 0.012907035798862, 0.0113938812201952,
   0.0003619443443393, 0.0257397319804561, 0.0101358716797558, 0.0065761472770359,
   0.012907035798862]

/-- `gauss_tet(order)`.  `/repo/solidspy/gaussutil.py:195-679`. -/
def gaussTet (order : ℤ) : Py (List (ℚ × ℚ × ℚ) × List ℚ) :=
  match order with
  | 1 => .ok (ptsTet1, wtsTet1)
  | 2 => .ok (ptsTet2, wtsTet2)
  | 3 => .ok (ptsTet3, wtsTet3)
  | 4 => .ok (ptsTet4, wtsTet4)
  | 5 => .ok (ptsTet4, wtsTet4)
  | 6 => .ok (ptsTet6, wtsTet6)
  | 7 => .ok (ptsTet7, wtsTet7)
  | 8 => .ok (ptsTet8, wtsTet8)
  | 9 => .ok (ptsTet9, wtsTet9)
  | 10 => .ok (ptsTet10, wtsTet10)
  | _ => .error .valueError

end Gauss
end SolidsPy
