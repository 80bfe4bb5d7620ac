import Verif.Model.Dop853
import Mathlib.Data.Rat.Cast.Defs

set_option autoImplicit false

/-! The coefficients of galpy/util/leung_dop853.py:36-199, digit by digit; zero where the file has no name. -/

namespace Verif.Dop853

/-- `a<i><j>`, leung_dop853.py:53-126. -/
def qa : ℕ → ℕ → ℚ
  | 2, 1 => 5.26001519587677318785587544488e-2
  | 3, 1 => 1.97250569845378994544595329183e-2
  | 3, 2 => 5.91751709536136983633785987549e-2
  | 4, 1 => 2.95875854768068491816892993775e-2
  | 4, 3 => 8.87627564304205475450678981324e-2
  | 5, 1 => 2.41365134159266685502369798665e-1
  | 5, 3 => (-8.84549479328286085344864962717e-1)
  | 5, 4 => 9.24834003261792003115737966543e-1
  | 6, 1 => 3.7037037037037037037037037037e-2
  | 6, 4 => 1.70828608729473871279604482173e-1
  | 6, 5 => 1.25467687566822425016691814123e-1
  | 7, 1 => 3.7109375e-2
  | 7, 4 => 1.70252211019544039314978060272e-1
  | 7, 5 => 6.02165389804559606850219397283e-2
  | 7, 6 => (-1.7578125e-2)
  | 8, 1 => 3.70920001185047927108779319836e-2
  | 8, 4 => 1.70383925712239993810214054705e-1
  | 8, 5 => 1.07262030446373284651809199168e-1
  | 8, 6 => (-1.53194377486244017527936158236e-2)
  | 8, 7 => 8.27378916381402288758473766002e-3
  | 9, 1 => 6.24110958716075717114429577812e-1
  | 9, 4 => (-3.36089262944694129406857109825e0)
  | 9, 5 => (-8.68219346841726006818189891453e-1)
  | 9, 6 => 2.75920996994467083049415600797e1
  | 9, 7 => 2.01540675504778934086186788979e1
  | 9, 8 => (-4.34898841810699588477366255144e1)
  | 10, 1 => 4.77662536438264365890433908527e-1
  | 10, 4 => (-2.48811461997166764192642586468e0)
  | 10, 5 => (-5.90290826836842996371446475743e-1)
  | 10, 6 => 2.12300514481811942347288949897e1
  | 10, 7 => 1.52792336328824235832596922938e1
  | 10, 8 => (-3.32882109689848629194453265587e1)
  | 10, 9 => (-2.03312017085086261358222928593e-2)
  | 11, 1 => (-9.3714243008598732571704021658e-1)
  | 11, 4 => 5.18637242884406370830023853209e0
  | 11, 5 => 1.09143734899672957818500254654e0
  | 11, 6 => (-8.14978701074692612513997267357e0)
  | 11, 7 => (-1.85200656599969598641566180701e1)
  | 11, 8 => 2.27394870993505042818970056734e1
  | 11, 9 => 2.49360555267965238987089396762e0
  | 11, 10 => (-3.0467644718982195003823669022e0)
  | 12, 1 => 2.27331014751653820792359768449e0
  | 12, 4 => (-1.05344954667372501984066689879e1)
  | 12, 5 => (-2.00087205822486249909675718444e0)
  | 12, 6 => (-1.79589318631187989172765950534e1)
  | 12, 7 => 2.79488845294199600508499808837e1
  | 12, 8 => (-2.85899827713502369474065508674e0)
  | 12, 9 => (-8.87285693353062954433549289258e0)
  | 12, 10 => 1.23605671757943030647266201528e1
  | 12, 11 => 6.43392746015763530355970484046e-1
  | 14, 1 => 5.61675022830479523392909219681e-2
  | 14, 7 => 2.53500210216624811088794765333e-1
  | 14, 8 => (-2.46239037470802489917441475441e-1)
  | 14, 9 => (-1.24191423263816360469010140626e-1)
  | 14, 10 => 1.5329179827876569731206322685e-1
  | 14, 11 => 8.20105229563468988491666602057e-3
  | 14, 12 => 7.56789766054569976138603589584e-3
  | 14, 13 => (-8.298e-3)
  | 15, 1 => 3.18346481635021405060768473261e-2
  | 15, 6 => 2.83009096723667755288322961402e-2
  | 15, 7 => 5.35419883074385676223797384372e-2
  | 15, 8 => (-5.49237485713909884646569340306e-2)
  | 15, 11 => (-1.08347328697249322858509316994e-4)
  | 15, 12 => 3.82571090835658412954920192323e-4
  | 15, 13 => (-3.40465008687404560802977114492e-4)
  | 15, 14 => 1.41312443674632500278074618366e-1
  | 16, 1 => (-4.28896301583791923408573538692e-1)
  | 16, 6 => (-4.69762141536116384314449447206e0)
  | 16, 7 => 7.68342119606259904184240953878e0
  | 16, 8 => 4.06898981839711007970213554331e0
  | 16, 9 => 3.56727187455281109270669543021e-1
  | 16, 13 => (-1.39902416515901462129418009734e-3)
  | 16, 14 => 2.9475147891527723389556272149e0
  | 16, 15 => (-9.15095847217987001081870187138e0)
  | _, _ => 0

/-- `b<i>`, leung_dop853.py:129-136. -/
def qb : ℕ → ℚ
  | 1 => 5.42937341165687622380535766363e-2
  | 6 => 4.45031289275240888144113950566
  | 7 => 1.89151789931450038304281599044
  | 8 => (-5.8012039600105847814672114227)
  | 9 => 3.1116436695781989440891606237e-1
  | 10 => (-1.52160949662516078556178806805e-1)
  | 11 => 2.01365400804030348374776537501e-1
  | 12 => 4.47106157277725905176885569043e-2
  | _ => 0

/-- `bhh<i>`, leung_dop853.py:137-139. -/
def qbhh : ℕ → ℚ
  | 1 => 0.244094488188976377952755905512
  | 2 => 0.733846688281611857341361741547
  | 3 => 0.220588235294117647058823529412e-1
  | _ => 0

/-- `er<i>`, leung_dop853.py:192-199. -/
def qer : ℕ → ℚ
  | 1 => 0.1312004499419488073250102996e-1
  | 6 => (-0.1225156446376204440720569753e1)
  | 7 => (-0.4957589496572501915214079952)
  | 8 => 0.1664377182454986536961530415e1
  | 9 => (-0.3503288487499736816886487290)
  | 10 => 0.3341791187130174790297318841
  | 11 => 0.8192320648511571246570742613e-1
  | 12 => (-0.2235530786388629525884427845e-1)
  | _ => 0

/-- `c<i>`, leung_dop853.py:36-50. -/
def qc : ℕ → ℚ
  | 2 => 0.526001519587677318785587544488e-1
  | 3 => 0.789002279381515978178381316732e-1
  | 4 => 0.118350341907227396726757197510
  | 5 => 0.281649658092772603273242802490
  | 6 => 0.333333333333333333333333333333
  | 7 => 0.25
  | 8 => 0.307692307692307692307692307692
  | 9 => 0.651282051282051282051282051282
  | 10 => 0.6
  | 11 => 0.857142857142857142857142857142
  | 12 => 1
  | 13 => 1
  | 14 => 0.1
  | 15 => 0.2
  | 16 => 0.777777777777777777777777777778
  | _ => 0

/-- `d<i><j>`, leung_dop853.py:142-189. -/
def qd : ℕ → ℕ → ℚ
  | 4, 1 => (-0.84289382761090128651353491142e1)
  | 4, 6 => 0.56671495351937776962531783590
  | 4, 7 => (-0.30689499459498916912797304727e1)
  | 4, 8 => 0.23846676565120698287728149680e1
  | 4, 9 => 0.21170345824450282767155149946e1
  | 4, 10 => (-0.87139158377797299206789907490)
  | 4, 11 => 0.22404374302607882758541771650e1
  | 4, 12 => 0.63157877876946881815570249290
  | 4, 13 => (-0.88990336451333310820698117400e-1)
  | 4, 14 => 0.18148505520854727256656404962e2
  | 4, 15 => (-0.91946323924783554000451984436e1)
  | 4, 16 => (-0.44360363875948939664310572000e1)
  | 5, 1 => 0.10427508642579134603413151009e2
  | 5, 6 => 0.24228349177525818288430175319e3
  | 5, 7 => 0.16520045171727028198505394887e3
  | 5, 8 => (-0.37454675472269020279518312152e3)
  | 5, 9 => (-0.22113666853125306036270938578e2)
  | 5, 10 => 0.77334326684722638389603898808e1
  | 5, 11 => (-0.30674084731089398182061213626e2)
  | 5, 12 => (-0.93321305264302278729567221706e1)
  | 5, 13 => 0.15697238121770843886131091075e2
  | 5, 14 => (-0.31139403219565177677282850411e2)
  | 5, 15 => (-0.93529243588444783865713862664e1)
  | 5, 16 => 0.35816841486394083752465898540e2
  | 6, 1 => 0.19985053242002433820987653617e2
  | 6, 6 => (-0.38703730874935176555105901742e3)
  | 6, 7 => (-0.18917813819516756882830838328e3)
  | 6, 8 => 0.52780815920542364900561016686e3
  | 6, 9 => (-0.11573902539959630126141871134e2)
  | 6, 10 => 0.68812326946963000169666922661e1
  | 6, 11 => (-0.10006050966910838403183860980e1)
  | 6, 12 => 0.77771377980534432092869265740
  | 6, 13 => (-0.27782057523535084065932004339e1)
  | 6, 14 => (-0.60196695231264120758267380846e2)
  | 6, 15 => 0.84320405506677161018159903784e2
  | 6, 16 => 0.11992291136182789328035130030e2
  | 7, 1 => (-0.25693933462703749003312586129e2)
  | 7, 6 => (-0.15418974869023643374053993627e3)
  | 7, 7 => (-0.23152937917604549567536039109e3)
  | 7, 8 => 0.35763911791061412378285349910e3
  | 7, 9 => 0.93405324183624310003907691704e2
  | 7, 10 => (-0.37458323136451633156875139351e2)
  | 7, 11 => 0.10409964950896230045147246184e3
  | 7, 12 => 0.29840293426660503123344363579e2
  | 7, 13 => (-0.43533456590011143754432175058e2)
  | 7, 14 => 0.96324553959188282948394950600e2
  | 7, 15 => (-0.39177261675615439165231486172e2)
  | 7, 16 => (-0.14972683625798562581422125276e3)
  | _, _ => 0

/-- The coefficients of the file. -/
noncomputable def fileTab : Tab :=
  ⟨fun i j => qa i j, fun i => qb i, fun i => qbhh i, fun i => qer i, fun i => qc i, fun i j => qd i j⟩

end Verif.Dop853
