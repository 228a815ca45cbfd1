import Mathlib.Data.Int.Notation

/-!
# Cargille oil coefficients

GENERATED by tools/gen_cargille.py from the tables in /repo/structcol/refractive_index.py:263-418.
Every table is a list of integers: `c` in units of 10^-7, `d` in units of 10^-1 (to be multiplied by 10^-8 as in the
source), `e` in units of 1 (to be multiplied by 10^-16 as in the source).
-/

namespace Verif.Index

/-- `cs['AAA']`, scale in the source: None. /repo/structcol/refractive_index.py:273-276 -/
def cTabAAA : List ℤ :=
  [12955420, 13003100, 13050780, 13098450, 13146140, 13193790, 13241460, 13289140, 13336850, 13384510, 13432190,
   13479860, 13527530, 13575220, 13622900, 13670580, 13718240, 13765920, 13813600, 13861270]

/-- `ds['AAA']`, scale in the source: 10 ** (-8). /repo/structcol/refractive_index.py:278-281 -/
def dTabAAA : List ℤ :=
  [1488282, 1575959, 1663635, 1753521, 1841197, 1930347, 2019496, 2106435, 2195585, 2282524, 2370200, 2458613,
   2548500, 2634702, 2722378, 2810791, 2900677, 2988353, 3076030, 3164442]

/-- `es['AAA']`, scale in the source: 10 ** (-16). /repo/structcol/refractive_index.py:283-287 -/
def eTabAAA : List ℤ :=
  [205000000000, 185000000000, 156000000000, 129000000000, 101000000000, 74200000000, 49400000000, 22200000000,
   -2470000000, -32100000000, -54400000000, -81600000000, -106000000000, -133000000000, -158000000000, -183000000000,
   -215000000000, -240000000000, -265000000000, -289000000000]

/-- `cs['AA']`, scale in the source: None. /repo/structcol/refractive_index.py:291-296 -/
def cTabAA : List ℤ :=
  [13878680, 13898820, 13918890, 13939010, 13959120, 13979260, 13999370, 14019490, 14039580, 14059700, 14079810,
   14099920, 14120040, 14140140, 14160280, 14180370, 14200490, 14220580, 14240700, 14260820, 14280930, 14301050,
   14321160, 14341280, 14361400, 14381490, 14401610, 14421730, 14441840, 14461950]

/-- `ds['AA']`, scale in the source: 10 ** (-8). /repo/structcol/refractive_index.py:298-303 -/
def dTabAA : List ℤ :=
  [4341806, 4329281, 4319703, 4306441, 4294653, 4283601, 4270339, 4259288, 4249710, 4235711, 4224659, 4212871,
   4199609, 4189294, 4174559, 4165717, 4153929, 4142140, 4129615, 4120037, 4105302, 4095724, 4083935, 4069937,
   4058148, 4047834, 4036045, 4024257, 4011732, 4001417]

/-- `es['AA']`, scale in the source: 10 ** (-16). /repo/structcol/refractive_index.py:305-310 -/
def eTabAA : List ℤ :=
  [-447000000000, -418000000000, -393000000000, -366000000000, -339000000000, -314000000000, -277000000000,
   -257000000000, -227000000000, -203000000000, -178000000000, -151000000000, -116000000000, -86500000000,
   -66700000000, -37100000000, -12400000000, 14800000000, 44500000000, 71700000000, 96400000000, 124000000000,
   151000000000, 180000000000, 208000000000, 235000000000, 260000000000, 287000000000, 319000000000, 344000000000]

/-- `cs['A']`, scale in the source: None. /repo/structcol/refractive_index.py:314-329 -/
def cTabA : List ℤ :=
  [14479240, 14496970, 14514660, 14532390, 14550100, 14567810, 14585550, 14603220, 14620940, 14638660, 14656340,
   14674070, 14691780, 14709510, 14727230, 14744920, 14762650, 14780350, 14798080, 14815750, 14833470, 14851180,
   14868890, 14886590, 14904330, 14922050, 14939760, 14957450, 14975160, 14992880, 15010590, 15028320, 15046000,
   15063720, 15081420, 15099160, 15116860, 15134560, 15152310, 15170000, 15187690, 15205400, 15223120, 15240800,
   15258560, 15276260, 15293970, 15311680, 15329410, 15347120, 15364800, 15382510, 15400230, 15417940, 15435660,
   15453380, 15466690, 15483510, 15500340, 15517170, 15533950, 15550810, 15567630, 15584430, 15601230, 15618070,
   15634880, 15651750, 15668520, 15685360, 15702180, 15719000, 15735820, 15752620, 15769440, 15786280, 15803080,
   15819920, 15836720, 15853520, 15870380, 15887170, 15904020, 15920810, 15937640, 15954450, 15971270, 15988090,
   16004930, 16021740, 16038570]

/-- `ds['A']`, scale in the source: 10 ** (-8). /repo/structcol/refractive_index.py:331-346 -/
def dTabA : List ℤ :=
  [4074357, 4139930, 4206240, 4269602, 4335912, 4401485, 4465584, 4533367, 4599677, 4664513, 4733033, 4798606,
   4861968, 4929752, 4992377, 5059424, 5126470, 5191306, 5258353, 5325399, 5387288, 5454334, 5519170, 5586953,
   5651790, 5717362, 5782198, 5849981, 5914818, 5980390, 6046700, 6110800, 6180056, 6244892, 6309728, 6376038,
   6442348, 6507183, 6571283, 6637592, 6703165, 6770948, 6837258, 6902831, 6968404, 7032503, 7099550, 7164385,
   7229958, 7296268, 7363314, 7429624, 7493723, 7560033, 7625606, 7691915, 7854005, 7922525, 7995466, 8062512,
   8134716, 8205446, 8274703, 8343223, 8415426, 8483210, 8553940, 8622460, 8694664, 8764657, 8833914, 8902434,
   8973901, 9042421, 9112414, 9183144, 9252401, 9322395, 9393125, 9462382, 9530902, 9603842, 9671626, 9740882,
   9813086, 9882342, 9951599, 10023800, 10090850, 10160840, 10233050]

/-- `es['A']`, scale in the source: 10 ** (-16). /repo/structcol/refractive_index.py:348-363 -/
def eTabA : List ℤ :=
  [415000000000, 462000000000, 512000000000, 561000000000, 608000000000, 650000000000, 705000000000, 749000000000,
   796000000000, 845000000000, 890000000000, 942000000000, 989000000000, 1040000000000, 1080000000000, 1130000000000,
   1180000000000, 1230000000000, 1270000000000, 1320000000000, 1370000000000, 1410000000000, 1460000000000,
   1510000000000, 1560000000000, 1600000000000, 1650000000000, 1700000000000, 1750000000000, 1800000000000,
   1840000000000, 1890000000000, 1940000000000, 1990000000000, 2040000000000, 2080000000000, 2130000000000,
   2180000000000, 2230000000000, 2270000000000, 2320000000000, 2370000000000, 2420000000000, 2450000000000,
   2510000000000, 2560000000000, 2610000000000, 2660000000000, 2700000000000, 2750000000000, 2800000000000,
   2840000000000, 2890000000000, 2940000000000, 2990000000000, 3030000000000, 3270000000000, 3410000000000,
   3550000000000, 3700000000000, 3830000000000, 3970000000000, 4110000000000, 4260000000000, 4400000000000,
   4540000000000, 4680000000000, 4820000000000, 4960000000000, 5100000000000, 5240000000000, 5380000000000,
   5530000000000, 5660000000000, 5800000000000, 5950000000000, 6080000000000, 6230000000000, 6360000000000,
   6510000000000, 6650000000000, 6790000000000, 6930000000000, 7070000000000, 7210000000000, 7350000000000,
   7490000000000, 7640000000000, 7780000000000, 7920000000000, 8050000000000]

/-- `cs['B']`, scale in the source: None. /repo/structcol/refractive_index.py:367-372 -/
def cTabB : List ℤ :=
  [16055350, 16072220, 16089030, 16105860, 16122670, 16139490, 16156300, 16173150, 16172980, 16191310, 16209600,
   16227940, 16246230, 16264560, 16282830, 16301150, 16319440, 16337760, 16356060, 16374370, 16392670, 16410970,
   16429280, 16447590, 16465850, 16484200, 16502490, 16520810, 16539130, 16557430]

/-- `ds['B']`, scale in the source: 10 ** (-8). /repo/structcol/refractive_index.py:374-379 -/
def dTabB : List ℤ :=
  [10303040, 10370090, 10438610, 10509340, 10581540, 10650800, 10720050, 10790780, 11926150, 11939410, 11954150,
   11962250, 11974040, 11986570, 11999830, 12011620, 12023410, 12032980, 12045510, 12059510, 12071300, 12083820,
   12095610, 12105190, 12120660, 12129500, 12141290, 12155290, 12167080, 12178130]

/-- `es['B']`, scale in the source: 10 ** (-16). /repo/structcol/refractive_index.py:381-386 -/
def eTabB : List ℤ :=
  [8190000000000, 8340000000000, 8480000000000, 8620000000000, 8760000000000, 8900000000000, 9040000000000,
   9180000000000, 7660000000000, 7820000000000, 7990000000000, 8150000000000, 8320000000000, 8480000000000,
   8640000000000, 8800000000000, 8970000000000, 9130000000000, 9290000000000, 9450000000000, 9610000000000,
   9780000000000, 9950000000000, 10100000000000, 10300000000000, 10400000000000, 10600000000000, 10800000000000,
   10900000000000, 11100000000000]

/-- `cs['E']`, scale in the source: None. /repo/structcol/refractive_index.py:390-395 -/
def cTabE : List ℤ :=
  [14782500, 14826070, 14869510, 14912950, 14956390, 14999860, 15043280, 15086730, 15130200, 15173630, 15217110,
   15260550, 15314580, 15382480, 15450390, 15491920, 15533950, 15576302, 15618070, 15660110, 15702180, 15744220,
   15786280, 15828340, 15870380, 15912410, 15954450, 15996510, 16038570]

/-- `ds['E']`, scale in the source: 10 ** (-8). /repo/structcol/refractive_index.py:397-402 -/
def dTabE : List ℤ :=
  [5754201, 5835246, 5920712, 6004704, 6086486, 6171215, 6252996, 6336989, 6419508, 6503500, 6586018, 6667800,
   6900620, 7325002, 7750857, 7960838, 8134716, 8308595, 8483210, 8657825, 8833914, 9008529, 9183144, 9358497,
   9530902, 9705517, 9882342, 10056220, 10231570]

/-- `es['E']`, scale in the source: 10 ** (-16). /repo/structcol/refractive_index.py:404-409 -/
def eTabE : List ℤ :=
  [6230000000000, 6740000000000, 7240000000000, 7740000000000, 8240000000000, 8740000000000, 9240000000000,
   9750000000000, 10200000000000, 10700000000000, 11200000000000, 11800000000000, 10500000000000, 6820000000000,
   3180000000000, 3490000000000, 3830000000000, 4180000000000, 4540000000000, 4890000000000, 5240000000000,
   5590000000000, 5950000000000, 6300000000000, 6650000000000, 7000000000000, 7350000000000, 7710000000000,
   8060000000000]

/-- `cs['acrylic']`, scale in the source: None. /repo/structcol/refractive_index.py:413-413 -/
def cTabAcrylic : List ℤ :=
  [14784190]

/-- `ds['acrylic']`, scale in the source: 10 ** (-8). /repo/structcol/refractive_index.py:415-415 -/
def dTabAcrylic : List ℤ :=
  [4631821]

/-- `es['acrylic']`, scale in the source: 10 ** (-16). /repo/structcol/refractive_index.py:417-417 -/
def eTabAcrylic : List ℤ :=
  [-86373380000]

end Verif.Index
