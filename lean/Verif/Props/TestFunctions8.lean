import Verif.TestFunctions.Lemmas
import Verif.TestFunctions.Trig
import Mathlib.Analysis.Real.Pi.Bounds

/-!
# C122, continued: `shubert`

Upper and lower bounds of the trigonometric polynomial of `shubert` by sums of squares, and an
enclosure of its value at two points.
-/

set_option linter.unusedSectionVars false
set_option linter.unusedVariables false

namespace Ecrs.Props
open Ecrs Ecrs.TF Real

/-! ### Enclosures -/

theorem near_1 : Near (1) (2701511519 / 5000000000 : ℝ) (4207354923 / 5000000000 : ℝ) (27 / 10000000000 : ℝ) :=
  (near_taylor 1 (by norm_num)).round' (d := (1 / 10000000000 : ℝ)) (by norm_num) (by norm_num) (by norm_num) (by norm_num) (by norm_num)

private theorem near_2 : Near (2) (-130045887 / 312500000 : ℝ) (9092974231 / 10000000000 : ℝ) (29 / 5000000000 : ℝ) :=
  ((near_1.add near_1).of_eq (by norm_num)).round' (d := (1 / 10000000000 : ℝ)) (by norm_num) (by norm_num) (by norm_num) (by norm_num) (by norm_num)

private theorem near_3 : Near (3) (-4949962467 / 5000000000 : ℝ) (1411200027 / 10000000000 : ℝ) (89 / 10000000000 : ℝ) :=
  ((near_2.add near_1).of_eq (by norm_num)).round' (d := (1 / 10000000000 : ℝ)) (by norm_num) (by norm_num) (by norm_num) (by norm_num) (by norm_num)

private theorem near_4 : Near (4) (-52291489 / 80000000 : ℝ) (-1892006239 / 2500000000 : ℝ) (3 / 250000000 : ℝ) :=
  ((near_3.add near_1).of_eq (by norm_num)).round' (d := (1 / 10000000000 : ℝ)) (by norm_num) (by norm_num) (by norm_num) (by norm_num) (by norm_num)

private theorem near_5 : Near (5) (1418310957 / 5000000000 : ℝ) (-9589242661 / 10000000000 : ℝ) (151 / 10000000000 : ℝ) :=
  ((near_4.add near_1).of_eq (by norm_num)).round' (d := (1 / 10000000000 : ℝ)) (by norm_num) (by norm_num) (by norm_num) (by norm_num) (by norm_num)

private theorem near_a1 : Near (0.80032) (1741192799 / 2500000000 : ℝ) (7175790003 / 10000000000 : ℝ) (1 / 1000000000 : ℝ) :=
  (near_taylor 0.80032 (by rw [abs_of_pos] <;> norm_num)).round' (d := (1 / 10000000000 : ℝ)) (by norm_num) (by norm_num) (by norm_num) (by norm_num) (by norm_num)

private theorem near_bh : Near (0.712565) (1513374859 / 2000000000 : ℝ) (1634442057 / 2500000000 : ℝ) (1 / 1000000000 : ℝ) :=
  (near_taylor 0.712565 (by rw [abs_of_pos] <;> norm_num)).round' (d := (1 / 10000000000 : ℝ)) (by norm_num) (by norm_num) (by norm_num) (by norm_num) (by norm_num)

private theorem near_b1 : Near (1.42513) (1451517319 / 10000000000 : ℝ) (989409407 / 1000000000 : ℝ) (3 / 1250000000 : ℝ) :=
  ((near_bh.add near_bh).of_eq (by norm_num)).round' (d := (1 / 10000000000 : ℝ)) (by norm_num) (by norm_num) (by norm_num) (by norm_num) (by norm_num)

private theorem near_a2 : Near (2 * 0.80032) (-59678487 / 2000000000 : ℝ) (312360847 / 312500000 : ℝ) (3 / 1250000000 : ℝ) :=
  ((near_a1.add near_a1).of_eq (by norm_num)).round' (d := (1 / 10000000000 : ℝ)) (by norm_num) (by norm_num) (by norm_num) (by norm_num) (by norm_num)

private theorem near_b2 : Near (2 * 1.42513) (-4789309747 / 5000000000 : ℝ) (143614489 / 500000000 : ℝ) (13 / 2500000000 : ℝ) :=
  ((near_b1.add near_b1).of_eq (by norm_num)).round' (d := (1 / 10000000000 : ℝ)) (by norm_num) (by norm_num) (by norm_num) (by norm_num) (by norm_num)

private theorem near_a3 : Near (3 * 0.80032) (-3690209101 / 5000000000 : ℝ) (6747549711 / 10000000000 : ℝ) (19 / 5000000000 : ℝ) :=
  ((near_a2.add near_a1).of_eq (by norm_num)).round' (d := (1 / 10000000000 : ℝ)) (by norm_num) (by norm_num) (by norm_num) (by norm_num) (by norm_num)

private theorem near_b3 : Near (3 * 1.42513) (-4232223737 / 10000000000 : ℝ) (-9060258397 / 10000000000 : ℝ) (1 / 125000000 : ℝ) :=
  ((near_b2.add near_b1).of_eq (by norm_num)).round' (d := (1 / 10000000000 : ℝ)) (by norm_num) (by norm_num) (by norm_num) (by norm_num) (by norm_num)

private theorem near_a4 : Near (4 * 0.80032) (-9982192387 / 10000000000 : ℝ) (-74564891 / 1250000000 : ℝ) (13 / 2500000000 : ℝ) :=
  ((near_a3.add near_a1).of_eq (by norm_num)).round' (d := (1 / 10000000000 : ℝ)) (by norm_num) (by norm_num) (by norm_num) (by norm_num) (by norm_num)

private theorem near_b4 : Near (4 * 1.42513) (8349990283 / 10000000000 : ℝ) (-5373549 / 9765625 : ℝ) (27 / 2500000000 : ℝ) :=
  ((near_b3.add near_b1).of_eq (by norm_num)).round' (d := (1 / 10000000000 : ℝ)) (by norm_num) (by norm_num) (by norm_num) (by norm_num) (by norm_num)

private theorem near_a5 : Near (5 * 0.80032) (-6524319001 / 10000000000 : ℝ) (-3789236779 / 5000000000 : ℝ) (33 / 5000000000 : ℝ) :=
  ((near_a4.add near_a1).of_eq (by norm_num)).round' (d := (1 / 10000000000 : ℝ)) (by norm_num) (by norm_num) (by norm_num) (by norm_num) (by norm_num)

private theorem near_b5 : Near (5 * 1.42513) (6656254839 / 10000000000 : ℝ) (466428717 / 625000000 : ℝ) (17 / 1250000000 : ℝ) :=
  ((near_b4.add near_b1).of_eq (by norm_num)).round' (d := (1 / 10000000000 : ℝ)) (by norm_num) (by norm_num) (by norm_num) (by norm_num) (by norm_num)

private theorem near_a6 : Near (6 * 0.80032) (447057287 / 5000000000 : ℝ) (-9959947741 / 10000000000 : ℝ) (1 / 125000000 : ℝ) :=
  ((near_a5.add near_a1).of_eq (by norm_num)).round' (d := (1 / 10000000000 : ℝ)) (by norm_num) (by norm_num) (by norm_num) (by norm_num) (by norm_num)

private theorem near_b6 : Near (6 * 1.42513) (-6417656447 / 10000000000 : ℝ) (766900813 / 1000000000 : ℝ) (41 / 2500000000 : ℝ) :=
  ((near_b5.add near_b1).of_eq (by norm_num)).round' (d := (1 / 10000000000 : ℝ)) (by norm_num) (by norm_num) (by norm_num) (by norm_num) (by norm_num)

private theorem near_av1 : Near (2 * -0.80032 + 1) (8249740743 / 10000000000 : ℝ) (-706463213 / 1250000000 : ℝ) (11 / 2000000000 : ℝ) :=
  ((near_1.add near_a2.neg).of_eq (by ring)).round' (d := (1 / 10000000000 : ℝ)) (by norm_num) (by norm_num) (by norm_num) (by norm_num) (by norm_num)

private theorem near_av2 : Near (3 * -0.80032 + 2) (1841373453 / 2000000000 : ℝ) (-3903023773 / 10000000000 : ℝ) (1 / 100000000 : ℝ) :=
  ((near_2.add near_a3.neg).of_eq (by ring)).round' (d := (1 / 10000000000 : ℝ)) (by norm_num) (by norm_num) (by norm_num) (by norm_num) (by norm_num)

private theorem near_av3 : Near (4 * -0.80032 + 3) (39192459 / 40000000 : ℝ) (-79969459 / 400000000 : ℝ) (29 / 2000000000 : ℝ) :=
  ((near_3.add near_a4.neg).of_eq (by ring)).round' (d := (1 / 10000000000 : ℝ)) (by norm_num) (by norm_num) (by norm_num) (by norm_num) (by norm_num)

private theorem near_av4 : Near (5 * -0.80032 + 4) (4999993571 / 5000000000 : ℝ) (-3999983 / 2500000000 : ℝ) (19 / 1000000000 : ℝ) :=
  ((near_4.add near_a5.neg).of_eq (by ring)).round' (d := (1 / 10000000000 : ℝ)) (by norm_num) (by norm_num) (by norm_num) (by norm_num) (by norm_num)

private theorem near_av5 : Near (6 * -0.80032 + 5) (9804462077 / 10000000000 : ℝ) (1967872441 / 10000000000 : ℝ) (47 / 2000000000 : ℝ) :=
  ((near_5.add near_a6.neg).of_eq (by ring)).round' (d := (1 / 10000000000 : ℝ)) (by norm_num) (by norm_num) (by norm_num) (by norm_num) (by norm_num)

private theorem near_bv1 : Near (2 * -1.42513 + 1) (-2758401671 / 10000000000 : ℝ) (-4806017581 / 5000000000 : ℝ) (83 / 10000000000 : ℝ) :=
  ((near_1.add near_b2.neg).of_eq (by ring)).round' (d := (1 / 10000000000 : ℝ)) (by norm_num) (by norm_num) (by norm_num) (by norm_num) (by norm_num)

private theorem near_bv2 : Near (3 * -1.42513 + 2) (-1295448617 / 2000000000 : ℝ) (-304749921 / 400000000 : ℝ) (71 / 5000000000 : ℝ) :=
  ((near_2.add near_b3.neg).of_eq (by ring)).round' (d := (1 / 10000000000 : ℝ)) (by norm_num) (by norm_num) (by norm_num) (by norm_num) (by norm_num)

private theorem near_bv3 : Near (4 * -1.42513 + 3) (-2260735629 / 2500000000 : ℝ) (-2134548539 / 5000000000 : ℝ) (201 / 10000000000 : ℝ) :=
  ((near_3.add near_b4.neg).of_eq (by ring)).round' (d := (1 / 10000000000 : ℝ)) (by norm_num) (by norm_num) (by norm_num) (by norm_num) (by norm_num)

private theorem near_bv4 : Near (5 * -1.42513 + 4) (-9998729131 / 10000000000 : ℝ) (-159419849 / 10000000000 : ℝ) (13 / 500000000 : ℝ) :=
  ((near_4.add near_b5.neg).of_eq (by ring)).round' (d := (1 / 10000000000 : ℝ)) (by norm_num) (by norm_num) (by norm_num) (by norm_num) (by norm_num)

private theorem near_bv5 : Near (6 * -1.42513 + 5) (-2293611121 / 2500000000 : ℝ) (3978638847 / 10000000000 : ℝ) (319 / 10000000000 : ℝ) :=
  ((near_5.add near_b6.neg).of_eq (by ring)).round' (d := (1 / 10000000000 : ℝ)) (by norm_num) (by norm_num) (by norm_num) (by norm_num) (by norm_num)


/-! ### Sums of squares -/

private theorem shub_sos1 (c1 c2 c3 c4 c5 c6 s1 s2 s3 s4 s5 s6 : ℝ)
    (q1 : c1 ^ 2 + s1 ^ 2 = 1) (q2 : c2 ^ 2 + s2 ^ 2 = 1) (p21 : c2 * c1 + s2 * s1 = c1)
    (r21 : s2 * c1 - c2 * s1 = s1) (q3 : c3 ^ 2 + s3 ^ 2 = 1) (p31 : c3 * c1 + s3 * s1 = c2)
    (r31 : s3 * c1 - c3 * s1 = s2) (p32 : c3 * c2 + s3 * s2 = c1) (r32 : s3 * c2 - c3 * s2 = s1)
    (q4 : c4 ^ 2 + s4 ^ 2 = 1) (p41 : c4 * c1 + s4 * s1 = c3) (r41 : s4 * c1 - c4 * s1 = s3)
    (p42 : c4 * c2 + s4 * s2 = c2) (r42 : s4 * c2 - c4 * s2 = s2) (p43 : c4 * c3 + s4 * s3 = c1)
    (r43 : s4 * c3 - c4 * s3 = s1) (q5 : c5 ^ 2 + s5 ^ 2 = 1) (p51 : c5 * c1 + s5 * s1 = c4)
    (r51 : s5 * c1 - c5 * s1 = s4) (p52 : c5 * c2 + s5 * s2 = c3) (r52 : s5 * c2 - c5 * s2 = s3)
    (p53 : c5 * c3 + s5 * s3 = c2) (r53 : s5 * c3 - c5 * s3 = s2) (p54 : c5 * c4 + s5 * s4 = c1)
    (r54 : s5 * c4 - c5 * s4 = s1) (q6 : c6 ^ 2 + s6 ^ 2 = 1) (p61 : c6 * c1 + s6 * s1 = c5)
    (r61 : s6 * c1 - c6 * s1 = s5) (p62 : c6 * c2 + s6 * s2 = c4) (r62 : s6 * c2 - c6 * s2 = s4)
    (p63 : c6 * c3 + s6 * s3 = c3) (r63 : s6 * c3 - c6 * s3 = s3) (p64 : c6 * c4 + s6 * s4 = c2)
    (r64 : s6 * c4 - c6 * s4 = s2) (p65 : c6 * c5 + s6 * s5 = c1) (r65 : s6 * c5 - c6 * s5 = s1) :
    0 ≤ (1450801737815329 / 100000000000000 : ℝ) + (3610341 / 25000000000000 : ℝ) * c1 - (-816969 / 5000000000000 : ℝ) * s1 + (-5403022286779 / 10000000000000 : ℝ) * c2 - (-21036784039379 / 25000000000000 : ℝ) * s2 + (41614679327471 / 50000000000000 : ℝ) * c3 - (-45464875089471 / 25000000000000 : ℝ) * s3 + (148498861687909 / 50000000000000 : ℝ) * c4 - (-21168011279431 / 50000000000000 : ℝ) * s4 + (130728739440771 / 50000000000000 : ℝ) * c5 - (15136051386321 / 5000000000000 : ℝ) * s5 + (-7091554476363 / 5000000000000 : ℝ) * c6 - (59932764555839 / 12500000000000 : ℝ) * s6 := by
  have h : ((-998067 / 1000000 : ℝ) + (-2656691 / 10000000 : ℝ) * c1 - (1040633 / 2500000 : ℝ) * s1 + (-474931 / 1000000 : ℝ) * c2 - (425819 / 2500000 : ℝ) * s2 + (-2540523 / 5000000 : ℝ) * c3 - (-541291 / 2500000 : ℝ) * s3 + (-1960137 / 10000000 : ℝ) * c4 - (-1449481 / 2500000 : ℝ) * s4 + (3725077 / 10000000 : ℝ) * c5 - (-1107203 / 2000000 : ℝ) * s5 + (7105289 / 10000000 : ℝ) * c6 - (0 / 1 : ℝ) * s6) ^ 2
      + ((-8434951 / 2500000 : ℝ) + (-2656691 / 10000000 : ℝ) * s1 + (1040633 / 2500000 : ℝ) * c1 + (-474931 / 1000000 : ℝ) * s2 + (425819 / 2500000 : ℝ) * c2 + (-2540523 / 5000000 : ℝ) * s3 + (-541291 / 2500000 : ℝ) * c3 + (-1960137 / 10000000 : ℝ) * s4 + (-1449481 / 2500000 : ℝ) * c4 + (3725077 / 10000000 : ℝ) * s5 + (-1107203 / 2000000 : ℝ) * c5 + (7105289 / 10000000 : ℝ) * s6 + (0 / 1 : ℝ) * c6) ^ 2
      = (1450801737815329 / 100000000000000 : ℝ) + (3610341 / 25000000000000 : ℝ) * c1 - (-816969 / 5000000000000 : ℝ) * s1 + (-5403022286779 / 10000000000000 : ℝ) * c2 - (-21036784039379 / 25000000000000 : ℝ) * s2 + (41614679327471 / 50000000000000 : ℝ) * c3 - (-45464875089471 / 25000000000000 : ℝ) * s3 + (148498861687909 / 50000000000000 : ℝ) * c4 - (-21168011279431 / 50000000000000 : ℝ) * s4 + (130728739440771 / 50000000000000 : ℝ) * c5 - (15136051386321 / 5000000000000 : ℝ) * s5 + (-7091554476363 / 5000000000000 : ℝ) * c6 - (59932764555839 / 12500000000000 : ℝ) * s6 := by
    linear_combination (4876935944101 / 20000000000000 : ℝ) * q1 + (6364273652069 / 25000000000000 : ℝ) * q2 + (9853694994021 / 25000000000000 : ℝ) * p21 + (-3811019208301 / 12500000000000 : ℝ) * r21 + (7626240900253 / 25000000000000 : ℝ) * q3 + (2243102371769 / 25000000000000 : ℝ) * p31 + (-6725547070199 / 12500000000000 : ℝ) * r31 + (5110897675249 / 12500000000000 : ℝ) * p32 + (-1183591171471 / 3125000000000 : ℝ) * r32 + (7491611953709 / 20000000000000 : ℝ) * q4 + (-18926565856901 / 50000000000000 : ℝ) * p41 + (-1472651593523 / 3125000000000 : ℝ) * r41 + (-283083271777 / 25000000000000 : ℝ) * p42 + (-7718698185313 / 12500000000000 : ℝ) * r42 + (11256501291419 / 25000000000000 : ℝ) * p43 + (-6303875120259 / 12500000000000 : ℝ) * r43 + (22261830368077 / 50000000000000 : ℝ) * q5 + (-32940218130187 / 50000000000000 : ℝ) * p51 + (798270988599 / 50000000000000 : ℝ) * r51 + (-2712090693201 / 5000000000000 : ℝ) * p52 + (-9973708573699 / 25000000000000 : ℝ) * r52 + (-3470453604541 / 25000000000000 : ℝ) * p53 + (-18097074744659 / 25000000000000 : ℝ) * r53 + (24795732977311 / 50000000000000 : ℝ) * p54 + (-32449061174203 / 50000000000000 : ℝ) * r54 + (50485131773521 / 100000000000000 : ℝ) * q6 + (-18876557338699 / 50000000000000 : ℝ) * p61 + (7393998207937 / 12500000000000 : ℝ) * r61 + (-3374522010059 / 5000000000000 : ℝ) * p62 + (3025567056691 / 12500000000000 : ℝ) * r62 + (-18051150126147 / 25000000000000 : ℝ) * p63 + (-3846028988099 / 12500000000000 : ℝ) * r63 + (-13927339864593 / 50000000000000 : ℝ) * p64 + (-10298981405009 / 12500000000000 : ℝ) * r64 + (26467748632253 / 50000000000000 : ℝ) * p65 + (-7866997296667 / 10000000000000 : ℝ) * r65
  rw [← h]; positivity

private theorem shub_sos2 (c1 c2 c3 c4 c5 c6 s1 s2 s3 s4 s5 s6 : ℝ)
    (q1 : c1 ^ 2 + s1 ^ 2 = 1) (q2 : c2 ^ 2 + s2 ^ 2 = 1) (p21 : c2 * c1 + s2 * s1 = c1)
    (r21 : s2 * c1 - c2 * s1 = s1) (q3 : c3 ^ 2 + s3 ^ 2 = 1) (p31 : c3 * c1 + s3 * s1 = c2)
    (r31 : s3 * c1 - c3 * s1 = s2) (p32 : c3 * c2 + s3 * s2 = c1) (r32 : s3 * c2 - c3 * s2 = s1)
    (q4 : c4 ^ 2 + s4 ^ 2 = 1) (p41 : c4 * c1 + s4 * s1 = c3) (r41 : s4 * c1 - c4 * s1 = s3)
    (p42 : c4 * c2 + s4 * s2 = c2) (r42 : s4 * c2 - c4 * s2 = s2) (p43 : c4 * c3 + s4 * s3 = c1)
    (r43 : s4 * c3 - c4 * s3 = s1) (q5 : c5 ^ 2 + s5 ^ 2 = 1) (p51 : c5 * c1 + s5 * s1 = c4)
    (r51 : s5 * c1 - c5 * s1 = s4) (p52 : c5 * c2 + s5 * s2 = c3) (r52 : s5 * c2 - c5 * s2 = s3)
    (p53 : c5 * c3 + s5 * s3 = c2) (r53 : s5 * c3 - c5 * s3 = s2) (p54 : c5 * c4 + s5 * s4 = c1)
    (r54 : s5 * c4 - c5 * s4 = s1) (q6 : c6 ^ 2 + s6 ^ 2 = 1) (p61 : c6 * c1 + s6 * s1 = c5)
    (r61 : s6 * c1 - c6 * s1 = s5) (p62 : c6 * c2 + s6 * s2 = c4) (r62 : s6 * c2 - c6 * s2 = s4)
    (p63 : c6 * c3 + s6 * s3 = c3) (r63 : s6 * c3 - c6 * s3 = s3) (p64 : c6 * c4 + s6 * s4 = c2)
    (r64 : s6 * c4 - c6 * s4 = s2) (p65 : c6 * c5 + s6 * s5 = c1) (r65 : s6 * c5 - c6 * s5 = s1) :
    0 ≤ (64354485004399 / 5000000000000 : ℝ) + (-179391 / 5000000000000 : ℝ) * c1 - (-560599 / 3125000000000 : ℝ) * s1 + (6753780798627 / 12500000000000 : ℝ) * c2 - (21036778029139 / 25000000000000 : ℝ) * s2 + (-20807342581589 / 25000000000000 : ℝ) * c3 - (90929740265101 / 50000000000000 : ℝ) * s3 + (-148498871839607 / 50000000000000 : ℝ) * c4 - (21167996377023 / 50000000000000 : ℝ) * s4 + (-3268218051179 / 1250000000000 : ℝ) * c5 - (-30272097540039 / 10000000000000 : ℝ) * s5 + (70915546220321 / 50000000000000 : ℝ) * c6 - (-23973107254789 / 5000000000000 : ℝ) * s6 := by
  have h : ((9327197 / 10000000 : ℝ) + (3950593 / 10000000 : ℝ) * c1 - (-1359581 / 5000000 : ℝ) * s1 + (1540541 / 10000000 : ℝ) * c2 - (346211 / 1000000 : ℝ) * s2 + (-1107321 / 2500000 : ℝ) * c3 - (311431 / 2000000 : ℝ) * s3 + (-691779 / 2000000 : ℝ) * c4 - (-1261273 / 2500000 : ℝ) * s4 + (3630173 / 10000000 : ℝ) * c5 - (-6172543 / 10000000 : ℝ) * s5 + (7603093 / 10000000 : ℝ) * c6 - (0 / 1 : ℝ) * s6) ^ 2
      + ((3153073 / 1000000 : ℝ) + (3950593 / 10000000 : ℝ) * s1 + (-1359581 / 5000000 : ℝ) * c1 + (1540541 / 10000000 : ℝ) * s2 + (346211 / 1000000 : ℝ) * c2 + (-1107321 / 2500000 : ℝ) * s3 + (311431 / 2000000 : ℝ) * c3 + (-691779 / 2000000 : ℝ) * s4 + (-1261273 / 2500000 : ℝ) * c4 + (3630173 / 10000000 : ℝ) * s5 + (-6172543 / 10000000 : ℝ) * c5 + (7603093 / 10000000 : ℝ) * s6 + (0 / 1 : ℝ) * c6) ^ 2
      = (64354485004399 / 5000000000000 : ℝ) + (-179391 / 5000000000000 : ℝ) * c1 - (-560599 / 3125000000000 : ℝ) * s1 + (6753780798627 / 12500000000000 : ℝ) * c2 - (21036778029139 / 25000000000000 : ℝ) * s2 + (-20807342581589 / 25000000000000 : ℝ) * c3 - (90929740265101 / 50000000000000 : ℝ) * s3 + (-148498871839607 / 50000000000000 : ℝ) * c4 - (21167996377023 / 50000000000000 : ℝ) * s4 + (-3268218051179 / 1250000000000 : ℝ) * c5 - (-30272097540039 / 10000000000000 : ℝ) * s5 + (70915546220321 / 50000000000000 : ℝ) * c6 - (-23973107254789 / 5000000000000 : ℝ) * s6 := by
    linear_combination (23001027033893 / 100000000000000 : ℝ) * q1 + (14359472224781 / 100000000000000 : ℝ) * q2 + (-3327987461007 / 50000000000000 : ℝ) * p21 + (-1116648004867 / 3125000000000 : ℝ) * r21 + (22043288446681 / 100000000000000 : ℝ) * q3 + (-10866227534761 / 25000000000000 : ℝ) * p31 + (5892255097093 / 50000000000000 : ℝ) * r31 + (-716225852797 / 25000000000000 : ℝ) * p32 + (-3546705910019 / 10000000000000 : ℝ) * r32 + (37416907909489 / 100000000000000 : ℝ) * q4 + (53736078169 / 50000000000000 : ℝ) * p41 + (14668200492773 / 25000000000000 : ℝ) * r41 + (-4559046605263 / 10000000000000 : ℝ) * p42 + (-2101451946839 / 25000000000000 : ℝ) * r42 + (93305475599 / 625000000000 : ℝ) * p43 + (-27732180917853 / 50000000000000 : ℝ) * r43 + (25639221548389 / 50000000000000 : ℝ) * q5 + (6225096082311 / 10000000000000 : ℝ) * p51 + (14514176692973 / 50000000000000 : ℝ) * r51 + (-15777592502137 / 50000000000000 : ℝ) * p52 + (22077113810793 / 50000000000000 : ℝ) * r52 + (-25690673381297 / 50000000000000 : ℝ) * p53 + (-21687203911397 / 50000000000000 : ℝ) * r53 + (18584660070121 / 50000000000000 : ℝ) * p54 + (-39664734880901 / 50000000000000 : ℝ) * r54 + (57807023166649 / 100000000000000 : ℝ) * q6 + (30036725984149 / 50000000000000 : ℝ) * p61 + (-10337020784033 / 25000000000000 : ℝ) * r61 + (11712876493313 / 50000000000000 : ℝ) * p62 + (2632274430623 / 5000000000000 : ℝ) * r62 + (-8419064543853 / 12500000000000 : ℝ) * p63 + (2367838856083 / 10000000000000 : ℝ) * r63 + (-5259660072447 / 10000000000000 : ℝ) * p64 + (-9589575917389 / 12500000000000 : ℝ) * r64 + (27600542925089 / 50000000000000 : ℝ) * p65 + (-46930418475499 / 50000000000000 : ℝ) * r65
  rw [← h]; positivity


private theorem cos_mul_sub (x : ℝ) (j l : ℕ) (h : l ≤ j) :
    cos (j * x) * cos (l * x) + sin (j * x) * sin (l * x) = cos ((j - l : ℕ) * x) := by
  rw [← cos_sub]; congr 1; push_cast [h]; ring
private theorem sin_mul_sub (x : ℝ) (j l : ℕ) (h : l ≤ j) :
    sin (j * x) * cos (l * x) - cos (j * x) * sin (l * x) = sin ((j - l : ℕ) * x) := by
  rw [← sin_sub]; congr 1; push_cast [h]; ring

/-- The factor of `shubert` belonging to one coordinate. -/
private noncomputable def shubY (x : ℝ) : ℝ :=
  (List.range' 1 5).foldl (fun y (i : ℕ) => y + (i : ℝ) * cos (((i + 1 : ℕ) : ℝ) * x + i)) (0 : ℝ)

private theorem shubY_eq (x : ℝ) : shubY x =
    1 * cos (2 * x + 1) + 2 * cos (3 * x + 2) + 3 * cos (4 * x + 3) + 4 * cos (5 * x + 4)
      + 5 * cos (6 * x + 5) := by
  have h : List.range' 1 5 = [1, 2, 3, 4, 5] := rfl
  simp only [shubY, h, List.foldl_cons, List.foldl_nil]
  norm_num

private theorem prod_near {a b c e : ℝ} (hc : |c| ≤ 1) (h : |a - b| ≤ e) : |c * a - b * c| ≤ e := by
  have e1 : c * a - b * c = c * (a - b) := by ring
  rw [e1, abs_mul]
  nlinarith [abs_nonneg (a - b), abs_nonneg c]

private theorem shub_bounds (x : ℝ) : -12.8709 ≤ shubY x ∧ shubY x ≤ 14.50802 := by
  have bc1 := abs_le.1 (abs_cos_le_one (1 * x))
  have bs1 := abs_le.1 (abs_sin_le_one (1 * x))
  have bc2 := abs_le.1 (abs_cos_le_one (2 * x))
  have bs2 := abs_le.1 (abs_sin_le_one (2 * x))
  have bc3 := abs_le.1 (abs_cos_le_one (3 * x))
  have bs3 := abs_le.1 (abs_sin_le_one (3 * x))
  have bc4 := abs_le.1 (abs_cos_le_one (4 * x))
  have bs4 := abs_le.1 (abs_sin_le_one (4 * x))
  have bc5 := abs_le.1 (abs_cos_le_one (5 * x))
  have bs5 := abs_le.1 (abs_sin_le_one (5 * x))
  have bc6 := abs_le.1 (abs_cos_le_one (6 * x))
  have bs6 := abs_le.1 (abs_sin_le_one (6 * x))
  have nc1 := abs_le.1 (prod_near (abs_cos_le_one (2 * x)) near_1.cos)
  have ns1 := abs_le.1 (prod_near (abs_sin_le_one (2 * x)) near_1.sin)
  have nc2 := abs_le.1 (prod_near (abs_cos_le_one (3 * x)) near_2.cos)
  have ns2 := abs_le.1 (prod_near (abs_sin_le_one (3 * x)) near_2.sin)
  have nc3 := abs_le.1 (prod_near (abs_cos_le_one (4 * x)) near_3.cos)
  have ns3 := abs_le.1 (prod_near (abs_sin_le_one (4 * x)) near_3.sin)
  have nc4 := abs_le.1 (prod_near (abs_cos_le_one (5 * x)) near_4.cos)
  have ns4 := abs_le.1 (prod_near (abs_sin_le_one (5 * x)) near_4.sin)
  have nc5 := abs_le.1 (prod_near (abs_cos_le_one (6 * x)) near_5.cos)
  have ns5 := abs_le.1 (prod_near (abs_sin_le_one (6 * x)) near_5.sin)
  have hy : shubY x = 1 * (cos (2 * x) * cos 1 - sin (2 * x) * sin 1) + 2 * (cos (3 * x) * cos 2 - sin (3 * x) * sin 2) + 3 * (cos (4 * x) * cos 3 - sin (4 * x) * sin 3) + 4 * (cos (5 * x) * cos 4 - sin (5 * x) * sin 4) + 5 * (cos (6 * x) * cos 5 - sin (6 * x) * sin 5) := by
    rw [shubY_eq, cos_add (2 * x), cos_add (3 * x), cos_add (4 * x), cos_add (5 * x), cos_add (6 * x)]
  rw [hy]
  constructor
  · have h := shub_sos2 (cos ((1 : ℕ) * x)) (cos ((2 : ℕ) * x)) (cos ((3 : ℕ) * x)) (cos ((4 : ℕ) * x)) (cos ((5 : ℕ) * x)) (cos ((6 : ℕ) * x))
      (sin ((1 : ℕ) * x)) (sin ((2 : ℕ) * x)) (sin ((3 : ℕ) * x)) (sin ((4 : ℕ) * x)) (sin ((5 : ℕ) * x)) (sin ((6 : ℕ) * x))
      (cos_sq_add_sin_sq _) (cos_sq_add_sin_sq _) (cos_mul_sub x 2 1 (by norm_num))
      (sin_mul_sub x 2 1 (by norm_num)) (cos_sq_add_sin_sq _) (cos_mul_sub x 3 1 (by norm_num))
      (sin_mul_sub x 3 1 (by norm_num)) (cos_mul_sub x 3 2 (by norm_num)) (sin_mul_sub x 3 2 (by norm_num))
      (cos_sq_add_sin_sq _) (cos_mul_sub x 4 1 (by norm_num)) (sin_mul_sub x 4 1 (by norm_num))
      (cos_mul_sub x 4 2 (by norm_num)) (sin_mul_sub x 4 2 (by norm_num)) (cos_mul_sub x 4 3 (by norm_num))
      (sin_mul_sub x 4 3 (by norm_num)) (cos_sq_add_sin_sq _) (cos_mul_sub x 5 1 (by norm_num))
      (sin_mul_sub x 5 1 (by norm_num)) (cos_mul_sub x 5 2 (by norm_num)) (sin_mul_sub x 5 2 (by norm_num))
      (cos_mul_sub x 5 3 (by norm_num)) (sin_mul_sub x 5 3 (by norm_num)) (cos_mul_sub x 5 4 (by norm_num))
      (sin_mul_sub x 5 4 (by norm_num)) (cos_sq_add_sin_sq _) (cos_mul_sub x 6 1 (by norm_num))
      (sin_mul_sub x 6 1 (by norm_num)) (cos_mul_sub x 6 2 (by norm_num)) (sin_mul_sub x 6 2 (by norm_num))
      (cos_mul_sub x 6 3 (by norm_num)) (sin_mul_sub x 6 3 (by norm_num)) (cos_mul_sub x 6 4 (by norm_num))
      (sin_mul_sub x 6 4 (by norm_num)) (cos_mul_sub x 6 5 (by norm_num)) (sin_mul_sub x 6 5 (by norm_num))
    push_cast at h
    linarith
  · have h := shub_sos1 (cos ((1 : ℕ) * x)) (cos ((2 : ℕ) * x)) (cos ((3 : ℕ) * x)) (cos ((4 : ℕ) * x)) (cos ((5 : ℕ) * x)) (cos ((6 : ℕ) * x))
      (sin ((1 : ℕ) * x)) (sin ((2 : ℕ) * x)) (sin ((3 : ℕ) * x)) (sin ((4 : ℕ) * x)) (sin ((5 : ℕ) * x)) (sin ((6 : ℕ) * x))
      (cos_sq_add_sin_sq _) (cos_sq_add_sin_sq _) (cos_mul_sub x 2 1 (by norm_num))
      (sin_mul_sub x 2 1 (by norm_num)) (cos_sq_add_sin_sq _) (cos_mul_sub x 3 1 (by norm_num))
      (sin_mul_sub x 3 1 (by norm_num)) (cos_mul_sub x 3 2 (by norm_num)) (sin_mul_sub x 3 2 (by norm_num))
      (cos_sq_add_sin_sq _) (cos_mul_sub x 4 1 (by norm_num)) (sin_mul_sub x 4 1 (by norm_num))
      (cos_mul_sub x 4 2 (by norm_num)) (sin_mul_sub x 4 2 (by norm_num)) (cos_mul_sub x 4 3 (by norm_num))
      (sin_mul_sub x 4 3 (by norm_num)) (cos_sq_add_sin_sq _) (cos_mul_sub x 5 1 (by norm_num))
      (sin_mul_sub x 5 1 (by norm_num)) (cos_mul_sub x 5 2 (by norm_num)) (sin_mul_sub x 5 2 (by norm_num))
      (cos_mul_sub x 5 3 (by norm_num)) (sin_mul_sub x 5 3 (by norm_num)) (cos_mul_sub x 5 4 (by norm_num))
      (sin_mul_sub x 5 4 (by norm_num)) (cos_sq_add_sin_sq _) (cos_mul_sub x 6 1 (by norm_num))
      (sin_mul_sub x 6 1 (by norm_num)) (cos_mul_sub x 6 2 (by norm_num)) (sin_mul_sub x 6 2 (by norm_num))
      (cos_mul_sub x 6 3 (by norm_num)) (sin_mul_sub x 6 3 (by norm_num)) (cos_mul_sub x 6 4 (by norm_num))
      (sin_mul_sub x 6 4 (by norm_num)) (cos_mul_sub x 6 5 (by norm_num)) (sin_mul_sub x 6 5 (by norm_num))
    push_cast at h
    linarith

private theorem shub_value : 14.508 ≤ shubY (-0.80032) ∧ shubY (-1.42513) ≤ -12.87088 := by
  rw [shubY_eq, shubY_eq]
  have ha1 := abs_le.1 near_av1.cos
  have ha2 := abs_le.1 near_av2.cos
  have ha3 := abs_le.1 near_av3.cos
  have ha4 := abs_le.1 near_av4.cos
  have ha5 := abs_le.1 near_av5.cos
  have hb1 := abs_le.1 near_bv1.cos
  have hb2 := abs_le.1 near_bv2.cos
  have hb3 := abs_le.1 near_bv3.cos
  have hb4 := abs_le.1 near_bv4.cos
  have hb5 := abs_le.1 near_bv5.cos
  constructor <;> linarith

/-- **C122**: `shubert`, documented minimum `-186.7309`: no value is below `-186.7313`, and
`f(-0.80032, -1.42513)` is below `-186.7307`. -/
theorem C122_shubert : HasMinimumUpTo 0.0004 (· = 2) shubert [-0.80032, -1.42513] (-186.7309) := by
  have low : ∀ x1 x2 : ℝ, -186.7309 - 0.0004 ≤ shubY x1 * shubY x2 := by
    intro x1 x2
    obtain ⟨a1, a2⟩ := shub_bounds x1
    obtain ⟨b1, b2⟩ := shub_bounds x2
    rcases le_total 0 (shubY x1) with h1 | h1 <;> rcases le_total 0 (shubY x2) with h2 | h2 <;> nlinarith
  refine ⟨rfl, ⟨_, rfl, ?_⟩, ?_⟩
  · show |shubY (-0.80032) * shubY (-1.42513) - -186.7309| ≤ 0.0004
    have h := low (-0.80032) (-1.42513)
    obtain ⟨h1, h2⟩ := shub_value
    rw [abs_le]
    constructor
    · linarith
    · nlinarith
  · intro x hx
    obtain ⟨x1, x2, rfl⟩ := List.length_eq_two.1 hx
    exact ⟨_, rfl, low x1 x2⟩

/-- **C122**: the documentation of `shubert` counts 18 global minima; over the reals there are
infinitely many points with each value the function takes. -/
theorem C122_shubert_periodic (x1 x2 : ℝ) (k m : ℤ) :
    shubert [x1 + k * (2 * π), x2 + m * (2 * π)] = shubert [x1, x2] := by
  have h : ∀ (x : ℝ) (k : ℤ), shubY (x + k * (2 * π)) = shubY x := by
    intro x k
    rw [shubY_eq, shubY_eq]
    have e : ∀ (a b : ℝ) (n : ℤ), (n : ℝ) = a → cos (a * (x + k * (2 * π)) + b) = cos (a * x + b) := by
      intro a b n hn
      have : a * (x + k * (2 * π)) + b = (a * x + b) + ((n * k : ℤ) : ℝ) * (2 * π) := by
        push_cast; rw [hn]; ring
      rw [this, cos_add_int_mul_two_pi]
    rw [e 2 1 2 (by norm_num), e 3 2 3 (by norm_num), e 4 3 4 (by norm_num), e 5 4 5 (by norm_num),
      e 6 5 6 (by norm_num)]
  show Except.ok (shubY (x1 + k * (2 * π)) * shubY (x2 + m * (2 * π))) = Except.ok (shubY x1 * shubY x2)
  rw [h, h]

end Ecrs.Props
