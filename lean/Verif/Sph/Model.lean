import Mathlib.Analysis.SpecialFunctions.Trigonometric.Basic
import Mathlib.Analysis.SpecialFunctions.Pow.Real

/-!
# Spherical harmonics (model)

`RealSphericalHarmonic` (`/repo/src/tools.c:1231-1655`) and `ComplexSphericalHarmonic` (`tools.c:1664-2042`), one
point at a time.  The decimal constants are kept as they are in the source; the rest is exact arithmetic.
`none` stands for the error message, after which the output is left as it was.
-/

namespace Sparc.Sph

/-! ## Real -/

/-- tools.c:1240. -/
noncomputable def r00 : ℝ := 282094791773878 / 10 ^ 15
/-- tools.c:1242. -/
noncomputable def r1m1 : ℝ := 488602511902920 / 10 ^ 15
/-- tools.c:1243. -/
noncomputable def r10 : ℝ := 488602511902920 / 10 ^ 15
/-- tools.c:1244. -/
noncomputable def r1p1 : ℝ := 488602511902920 / 10 ^ 15
/-- tools.c:1246. -/
noncomputable def r2m2 : ℝ := 1092548430592079 / 10 ^ 15
/-- tools.c:1247. -/
noncomputable def r2m1 : ℝ := 1092548430592079 / 10 ^ 15
/-- tools.c:1248. -/
noncomputable def r20 : ℝ := 315391565252520 / 10 ^ 15
/-- tools.c:1249. -/
noncomputable def r2p1 : ℝ := 1092548430592079 / 10 ^ 15
/-- tools.c:1250. -/
noncomputable def r2p2 : ℝ := 546274215296040 / 10 ^ 15
/-- tools.c:1252. -/
noncomputable def r3m3 : ℝ := 590043589926644 / 10 ^ 15
/-- tools.c:1253. -/
noncomputable def r3m2 : ℝ := 2890611442640554 / 10 ^ 15
/-- tools.c:1254. -/
noncomputable def r3m1 : ℝ := 457045799464466 / 10 ^ 15
/-- tools.c:1255. -/
noncomputable def r30 : ℝ := 373176332590115 / 10 ^ 15
/-- tools.c:1256. -/
noncomputable def r3p1 : ℝ := 457045799464466 / 10 ^ 15
/-- tools.c:1257. -/
noncomputable def r3p2 : ℝ := 1445305721320277 / 10 ^ 15
/-- tools.c:1258. -/
noncomputable def r3p3 : ℝ := 590043589926644 / 10 ^ 15
/-- tools.c:1260. -/
noncomputable def r4m4 : ℝ := 2503342941796705 / 10 ^ 15
/-- tools.c:1261. -/
noncomputable def r4m3 : ℝ := 1770130769779930 / 10 ^ 15
/-- tools.c:1262. -/
noncomputable def r4m2 : ℝ := 946174695757560 / 10 ^ 15
/-- tools.c:1263. -/
noncomputable def r4m1 : ℝ := 669046543557289 / 10 ^ 15
/-- tools.c:1264. -/
noncomputable def r40 : ℝ := 105785546915204 / 10 ^ 15
/-- tools.c:1265. -/
noncomputable def r4p1 : ℝ := 669046543557289 / 10 ^ 15
/-- tools.c:1266. -/
noncomputable def r4p2 : ℝ := 473087347878780 / 10 ^ 15
/-- tools.c:1267. -/
noncomputable def r4p3 : ℝ := 1770130769779930 / 10 ^ 15
/-- tools.c:1268. -/
noncomputable def r4p4 : ℝ := 625835735449176 / 10 ^ 15
/-- tools.c:1270. -/
noncomputable def r5m5 : ℝ := 656382056840170 / 10 ^ 15
/-- tools.c:1271. -/
noncomputable def r5m4 : ℝ := 2075662314881042 / 10 ^ 15
/-- tools.c:1272. -/
noncomputable def r5m3 : ℝ := 489238299435250 / 10 ^ 15
/-- tools.c:1273. -/
noncomputable def r5m2 : ℝ := 4793536784973324 / 10 ^ 15
/-- tools.c:1274. -/
noncomputable def r5m1 : ℝ := 452946651195697 / 10 ^ 15
/-- tools.c:1275. -/
noncomputable def r50 : ℝ := 116950322453424 / 10 ^ 15
/-- tools.c:1276. -/
noncomputable def r5p1 : ℝ := 452946651195697 / 10 ^ 15
/-- tools.c:1277. -/
noncomputable def r5p2 : ℝ := 2396768392486662 / 10 ^ 15
/-- tools.c:1278. -/
noncomputable def r5p3 : ℝ := 489238299435250 / 10 ^ 15
/-- tools.c:1279. -/
noncomputable def r5p4 : ℝ := 2075662314881042 / 10 ^ 15
/-- tools.c:1280. -/
noncomputable def r5p5 : ℝ := 656382056840170 / 10 ^ 15
/-- tools.c:1282. -/
noncomputable def r6m6 : ℝ := 683184105191914 / 10 ^ 15
/-- tools.c:1283. -/
noncomputable def r6m5 : ℝ := 2366619162231752 / 10 ^ 15
/-- tools.c:1284. -/
noncomputable def r6m4 : ℝ := 504564900728724 / 10 ^ 15
/-- tools.c:1285. -/
noncomputable def r6m3 : ℝ := 921205259514923 / 10 ^ 15
/-- tools.c:1286. -/
noncomputable def r6m2 : ℝ := 460602629757462 / 10 ^ 15
/-- tools.c:1287. -/
noncomputable def r6m1 : ℝ := 582621362518731 / 10 ^ 15
/-- tools.c:1288. -/
noncomputable def r60 : ℝ := 635692022676284 / 10 ^ 16
/-- tools.c:1289. -/
noncomputable def r6p1 : ℝ := 582621362518731 / 10 ^ 15
/-- tools.c:1290. -/
noncomputable def r6p2 : ℝ := 460602629757462 / 10 ^ 15
/-- tools.c:1291. -/
noncomputable def r6p3 : ℝ := 921205259514923 / 10 ^ 15
/-- tools.c:1292. -/
noncomputable def r6p4 : ℝ := 504564900728724 / 10 ^ 15
/-- tools.c:1293. -/
noncomputable def r6p5 : ℝ := 2366619162231752 / 10 ^ 15
/-- tools.c:1294. -/
noncomputable def r6p6 : ℝ := 683184105191914 / 10 ^ 15

/-- The nested `switch`, tools.c:1296-1649. -/
noncomputable def realMain (l : ℕ) (m : ℤ) (x y z r : ℝ) : Option ℝ :=
  let p := Real.sqrt (x * x + y * y)
  if l = 0 then some r00  -- 1300
  else if l = 1 then
    if m = -1 then some (r1m1 * (y / r))  -- 1309
    else if m = 0 then some (r10 * (z / r))  -- 1314
    else if m = 1 then some (r1p1 * (x / r))  -- 1319
    else none
  else if l = 2 then
    if m = -2 then some (r2m2 * (x * y) / (r * r))  -- 1333
    else if m = -1 then some (r2m1 * (y * z) / (r * r))  -- 1338
    else if m = 0 then some (r20 * (-x * x - y * y + 2 * z * z) / (r * r))  -- 1343
    else if m = 1 then some (r2p1 * (z * x) / (r * r))  -- 1348
    else if m = 2 then some (r2p2 * (x * x - y * y) / (r * r))  -- 1353
    else none
  else if l = 3 then
    if m = -3 then some (r3m3 * (3 * x * x - y * y) * y / (r * r * r))  -- 1368
    else if m = -2 then some (r3m2 * (x * y * z) / (r * r * r))  -- 1373
    else if m = -1 then some (r3m1 * y * (4 * z * z - x * x - y * y) / (r * r * r))  -- 1378
    else if m = 0 then some (r30 * z * (2 * z * z - 3 * x * x - 3 * y * y) / (r * r * r))  -- 1383
    else if m = 1 then some (r3p1 * x * (4 * z * z - x * x - y * y) / (r * r * r))  -- 1388
    else if m = 2 then some (r3p2 * z * (x * x - y * y) / (r * r * r))  -- 1393
    else if m = 3 then some (r3p3 * x * (x * x - 3 * y * y) / (r * r * r))  -- 1398
    else none
  else if l = 4 then
    if m = -4 then some (r4m4 * (x * y * (x * x - y * y)) / (r * r * r * r))  -- 1413
    else if m = -3 then some (r4m3 * (3 * x * x - y * y) * y * z / (r * r * r * r))  -- 1418
    else if m = -2 then some (r4m2 * x * y * (7 * z * z - r * r) / (r * r * r * r))  -- 1423
    else if m = -1 then some (r4m1 * y * z * (7 * z * z - 3 * r * r) / (r * r * r * r))  -- 1428
    else if m = 0 then some (r40 * (35 * z * z * z * z - 30 * z * z * r * r + 3 * r * r * r * r) / (r * r * r * r))  -- 1433
    else if m = 1 then some (r4p1 * x * z * (7 * z * z - 3 * r * r) / (r * r * r * r))  -- 1438
    else if m = 2 then some (r4p2 * (x * x - y * y) * (7 * z * z - r * r) / (r * r * r * r))  -- 1443
    else if m = 3 then some (r4p3 * (x * x - 3 * y * y) * x * z / (r * r * r * r))  -- 1448
    else if m = 4 then some (r4p4 * (x * x * (x * x - 3 * y * y) - y * y * (3 * x * x - y * y)) / (r * r * r * r))  -- 1453
    else none
  else if l = 5 then
    if m = -5 then some (r5m5 * (8 * x * x * x * x * y - 4 * x * x * y * y * y + 4 * y ^ 5 - 3 * y * p * p * p * p) / (r * r * r * r * r))  -- 1470
    else if m = -4 then some (r5m4 * (4 * x * x * x * y - 4 * x * y * y * y) * z / (r * r * r * r * r))  -- 1477
    else if m = -3 then some (r5m3 * (3 * y * p * p - 4 * y * y * y) * (9 * z * z - r * r) / (r * r * r * r * r))  -- 1484
    else if m = -2 then some (r5m2 * x * y * (3 * z * z * z - z * r * r) / (r * r * r * r * r))  -- 1491
    else if m = -1 then some (r5m1 * y * (21 * z * z * z * z - 14 * r * r * z * z + r * r * r * r) / (r * r * r * r * r))  -- 1498
    else if m = 0 then some (r50 * (63 * z * z * z * z * z - 70 * z * z * z * r * r + 15 * z * r * r * r * r) / (r * r * r * r * r))  -- 1505
    else if m = 1 then some (r5p1 * x * (21 * z * z * z * z - 14 * r * r * z * z + r * r * r * r) / (r * r * r * r * r))  -- 1512
    else if m = 2 then some (r5p2 * (x * x - y * y) * (3 * z * z * z - r * r * z) / (r * r * r * r * r))  -- 1519
    else if m = 3 then some (r5p3 * (4 * x * x * x - 3 * p * p * x) * (9 * z * z - r * r) / (r * r * r * r * r))  -- 1526
    else if m = 4 then some (r5p4 * (4 * (x * x * x * x + y * y * y * y) - 3 * p * p * p * p) * z / (r * r * r * r * r))  -- 1533
    else if m = 5 then some (r5p5 * (4 * x * x * x * x * x + 8 * x * y * y * y * y - 4 * x * x * x * y * y - 3 * x * p * p * p * p) / (r * r * r * r * r))  -- 1540
    else none
  else if l = 6 then
    if m = -6 then some (r6m6 * (12 * x ^ 5 * y + 12 * x * y ^ 5 - 8 * x * x * x * y * y * y - 6 * x * y * p ^ 4) / (r * r * r * r * r * r))  -- 1558
    else if m = -5 then some (r6m5 * (8 * x ^ 4 * y - 4 * x * x * y * y * y + 4 * y ^ 5 - 3 * y * p ^ 4) * z / (r * r * r * r * r * r))  -- 1565
    else if m = -4 then some (r6m4 * (4 * x * x * x * y - 4 * x * y * y * y) * (11 * z * z - r * r) / (r * r * r * r * r * r))  -- 1571
    else if m = -3 then some (r6m3 * (-4 * y * y * y + 3 * y * p * p) * (11 * z * z * z - 3 * z * r * r) / (r * r * r * r * r * r))  -- 1577
    else if m = -2 then some (r6m2 * (2 * x * y) * (33 * z ^ 4 - 18 * z * z * r * r + r ^ 4) / (r * r * r * r * r * r))  -- 1584
    else if m = -1 then some (r6m1 * y * (33 * z ^ 5 - 30 * z * z * z * r * r + 5 * z * r ^ 4) / (r * r * r * r * r * r))  -- 1590
    else if m = 0 then some (r60 * (231 * z ^ 6 - 315 * z ^ 4 * r * r + 105 * z * z * r ^ 4 - 5 * r ^ 6) / (r * r * r * r * r * r))  -- 1596
    else if m = 1 then some (r6p1 * x * (33 * z ^ 5 - 30 * z * z * z * r * r + 5 * z * r ^ 4) / (r * r * r * r * r * r))  -- 1603
    else if m = 2 then some (r6p2 * (x * x - y * y) * (33 * z ^ 4 - 18 * z * z * r * r + r ^ 4) / (r * r * r * r * r * r))  -- 1610
    else if m = 3 then some (r6p3 * (4 * x * x * x - 3 * x * p * p) * (11 * z * z * z - 3 * z * r * r) / (r * r * r * r * r * r))  -- 1617
    else if m = 4 then some (r6p4 * (4 * x ^ 4 + 4 * y ^ 4 - 3 * p ^ 4) * (11 * z * z - r * r) / (r * r * r * r * r * r))  -- 1624
    else if m = 5 then some (r6p5 * (4 * x ^ 5 + 8 * x * y ^ 4 - 4 * x * x * x * y * y - 3 * x * p ^ 4) * z / (r * r * r * r * r * r))  -- 1631
    else if m = 6 then some (r6p6 * (4 * x ^ 6 - 4 * y ^ 6 + 12 * x * x * y ^ 4 - 12 * x ^ 4 * y * y + 3 * y * y * p ^ 4 - 3 * x * x * p ^ 4) / (r * r * r * r * r * r))  -- 1638
    else none
  else none

/-- One entry of the output, tools.c:1231-1655; the last loop (1650-1654) clears points near the origin. -/
noncomputable def realY (l : ℕ) (m : ℤ) (x y z r : ℝ) : Option ℝ :=
  if 0 < l ∧ r < 1 / 10 ^ 10 then some 0 else realMain l m x y z r

/-! ## Complex -/

/-- tools.c:1671. -/
noncomputable def z00 : ℝ := 282094791773878 / 10 ^ 15
/-- tools.c:1673. -/
noncomputable def z11 : ℝ := 345494149471335 / 10 ^ 15
/-- tools.c:1674. -/
noncomputable def z10 : ℝ := 488602511902920 / 10 ^ 15
/-- tools.c:1676. -/
noncomputable def z22 : ℝ := 386274202023190 / 10 ^ 15
/-- tools.c:1677. -/
noncomputable def z21 : ℝ := 772548404046379 / 10 ^ 15
/-- tools.c:1678. -/
noncomputable def z20 : ℝ := 315391565252520 / 10 ^ 15
/-- tools.c:1680. -/
noncomputable def z33 : ℝ := 417223823632784 / 10 ^ 15
/-- tools.c:1681. -/
noncomputable def z32 : ℝ := 1021985476433282 / 10 ^ 15
/-- tools.c:1682. -/
noncomputable def z31 : ℝ := 323180184114151 / 10 ^ 15
/-- tools.c:1683. -/
noncomputable def z30 : ℝ := 373176332590115 / 10 ^ 15
/-- tools.c:1685. -/
noncomputable def z44 : ℝ := 442532692444983 / 10 ^ 15
/-- tools.c:1686. -/
noncomputable def z43 : ℝ := 1251671470898352 / 10 ^ 15
/-- tools.c:1687. -/
noncomputable def z42 : ℝ := 334523271778645 / 10 ^ 15
/-- tools.c:1688. -/
noncomputable def z41 : ℝ := 473087347878780 / 10 ^ 15
/-- tools.c:1689. -/
noncomputable def z40 : ℝ := 105785546915204 / 10 ^ 15
/-- tools.c:1691. -/
noncomputable def z55 : ℝ := 464132203440858 / 10 ^ 15
/-- tools.c:1692. -/
noncomputable def z54 : ℝ := 1467714898305751 / 10 ^ 15
/-- tools.c:1693. -/
noncomputable def z53 : ℝ := 345943719146840 / 10 ^ 15
/-- tools.c:1694. -/
noncomputable def z52 : ℝ := 1694771183260899 / 10 ^ 15
/-- tools.c:1695. -/
noncomputable def z51 : ℝ := 320281648576215 / 10 ^ 15
/-- tools.c:1696. -/
noncomputable def z50 : ℝ := 116950322453424 / 10 ^ 15
/-- tools.c:1698. -/
noncomputable def z66 : ℝ := 483084113580066 / 10 ^ 15
/-- tools.c:1699. -/
noncomputable def z65 : ℝ := 1673452458100098 / 10 ^ 15
/-- tools.c:1700. -/
noncomputable def z64 : ℝ := 356781262853998 / 10 ^ 15
/-- tools.c:1701. -/
noncomputable def z63 : ℝ := 651390485867716 / 10 ^ 15
/-- tools.c:1702. -/
noncomputable def z62 : ℝ := 325695242933858 / 10 ^ 15
/-- tools.c:1703. -/
noncomputable def z61 : ℝ := 411975516301141 / 10 ^ 15
/-- tools.c:1704. -/
noncomputable def z60 : ℝ := 63569202267628 / 10 ^ 15

/-- The nested `switch`, tools.c:1706-2035; the coordinates are converted to complex numbers. -/
noncomputable def complexMain (l : ℕ) (m : ℤ) (x y z r : ℂ) : Option ℂ :=
  let I := Complex.I
  if l = 0 then some z00  -- 1710
  else if l = 1 then
    if m = -1 then some (z11 * ((x - I * y) / r))  -- 1719
    else if m = 0 then some (z10 * (z / r))  -- 1724
    else if m = 1 then some (-z11 * ((x + I * y) / r))  -- 1729
    else none
  else if l = 2 then
    if m = -2 then some (z22 * ((x - I * y) * (x - I * y)) / (r * r))  -- 1743
    else if m = -1 then some (z21 * ((x - I * y) * z) / (r * r))  -- 1748
    else if m = 0 then some (z20 * (2 * z * z - x * x - y * y) / (r * r))  -- 1753
    else if m = 1 then some (-z21 * ((x + I * y) * z) / (r * r))  -- 1758
    else if m = 2 then some (z22 * ((x + I * y) * (x + I * y)) / (r * r))  -- 1763
    else none
  else if l = 3 then
    if m = -3 then some (z33 * ((x - I * y) * (x - I * y) * (x - I * y)) / (r * r * r))  -- 1778
    else if m = -2 then some (z32 * ((x - I * y) * ((x - I * y)) * z) / (r * r * r))  -- 1783
    else if m = -1 then some (z31 * (x - I * y) * (4 * z * z - x * x - y * y) / (r * r * r))  -- 1788
    else if m = 0 then some (z30 * z * (2 * z * z - 3 * x * x - 3 * y * y) / (r * r * r))  -- 1793
    else if m = 1 then some (-z31 * (x + I * y) * (4 * z * z - x * x - y * y) / (r * r * r))  -- 1798
    else if m = 2 then some (z32 * (((x + I * y) * (x + I * y)) * z) / (r * r * r))  -- 1803
    else if m = 3 then some (-z33 * ((x + I * y) * (x + I * y) * (x + I * y)) / (r * r * r))  -- 1808
    else none
  else if l = 4 then
    if m = -4 then some (z44 * ((x - I * y) * (x - I * y) * (x - I * y) * (x - I * y)) / r ^ 4)  -- 1823
    else if m = -3 then some (z43 * (((x - I * y) * (x - I * y) * (x - I * y)) * z) / r ^ 4)  -- 1828
    else if m = -2 then some (z42 * (((x - I * y) * (x - I * y)) * (7 * z * z - r * r)) / r ^ 4)  -- 1833
    else if m = -1 then some (z41 * ((x - I * y) * z * (7 * z * z - 3 * r * r)) / r ^ 4)  -- 1838
    else if m = 0 then some (z40 * (35 * z * z * z * z - 30 * (z * z) * (r * r) + 3 * r * r * r * r) / r ^ 4)  -- 1843
    else if m = 1 then some (-z41 * ((x + I * y) * z * (7 * z * z - 3 * r * r)) / r ^ 4)  -- 1848
    else if m = 2 then some (z42 * (((x + I * y) * (x + I * y)) * (7 * z * z - r * r)) / r ^ 4)  -- 1853
    else if m = 3 then some (-z43 * (((x + I * y) * (x + I * y) * (x + I * y)) * z) / r ^ 4)  -- 1858
    else if m = 4 then some (z44 * ((x + I * y) * (x + I * y) * (x + I * y) * (x + I * y)) / r ^ 4)  -- 1863
    else none
  else if l = 5 then
    if m = -5 then some (z55 * ((x - I * y) ^ 5) / r ^ 5)  -- 1878
    else if m = -4 then some (z54 * ((x - I * y) ^ 4 * z) / r ^ 5)  -- 1884
    else if m = -3 then some (z53 * (((x - I * y) * (x - I * y) * (x - I * y)) * (9 * z * z - r * r)) / r ^ 5)  -- 1890
    else if m = -2 then some (z52 * (((x - I * y) * (x - I * y)) * (3 * z * z * z - z * r * r)) / r ^ 5)  -- 1896
    else if m = -1 then some (z51 * ((x - I * y) * (21 * z ^ 4 - 14 * z * z * r * r + r ^ 4)) / r ^ 5)  -- 1902
    else if m = 0 then some (z50 * (63 * z ^ 5 - 70 * (z * z * z) * (r * r) + 15 * z * r ^ 4) / r ^ 5)  -- 1908
    else if m = 1 then some (-z51 * ((x + I * y) * (21 * z ^ 4 - 14 * z * z * r * r + r ^ 4)) / r ^ 5)  -- 1914
    else if m = 2 then some (z52 * (((x + I * y) * (x + I * y)) * (3 * z * z * z - z * r * r)) / r ^ 5)  -- 1920
    else if m = 3 then some (-z53 * (((x + I * y) * (x + I * y) * (x + I * y)) * (9 * z * z - r * r)) / r ^ 5)  -- 1926
    else if m = 4 then some (z54 * ((x + I * y) ^ 4 * z) / r ^ 5)  -- 1932
    else if m = 5 then some (-z55 * (x + I * y) ^ 5 / r ^ 5)  -- 1938
    else none
  else if l = 6 then
    if m = -6 then some (z66 * (x - I * y) ^ 6 / r ^ 6)  -- 1954
    else if m = -5 then some (z65 * ((x - I * y) ^ 5 * z) / r ^ 6)  -- 1960
    else if m = -4 then some (z64 * ((x - I * y) ^ 4 * (11 * z * z - r * r)) / r ^ 6)  -- 1966
    else if m = -3 then some (z63 * (((x - I * y) * (x - I * y) * (x - I * y)) * (11 * z * z * z - 3 * z * r * r)) / r ^ 6)  -- 1971
    else if m = -2 then some (z62 * (((x - I * y) * (x - I * y)) * (33 * z ^ 4 - 18 * (z * z) * (r * r) + r ^ 4)) / r ^ 6)  -- 1977
    else if m = -1 then some (z61 * ((x - I * y) * (33 * z ^ 5 - 30 * (z * z * z) * (r * r) + 5 * z * r ^ 4)) / r ^ 6)  -- 1983
    else if m = 0 then some (z60 * (231 * z ^ 6 - 315 * z ^ 4 * (r * r) + 105 * (z * z) * r ^ 4 - 5 * r ^ 6) / r ^ 6)  -- 1988
    else if m = 1 then some (-z61 * ((x + I * y) * (33 * z ^ 5 - 30 * (z * z * z) * (r * r) + 5 * z * r ^ 4)) / r ^ 6)  -- 1994
    else if m = 2 then some (z62 * (((x + I * y) * (x + I * y)) * (33 * z ^ 4 - 18 * (z * z) * (r * r) + r ^ 4)) / r ^ 6)  -- 2000
    else if m = 3 then some (-z63 * (((x + I * y) * (x + I * y) * (x + I * y)) * (11 * z * z * z - 3 * z * (r * r))) / r ^ 6)  -- 2006
    else if m = 4 then some (z64 * ((x + I * y) ^ 4 * (11 * z * z - r * r)) / r ^ 6)  -- 2012
    else if m = 5 then some (-z65 * ((x + I * y) ^ 5 * z) / r ^ 6)  -- 2018
    else if m = 6 then some (z66 * (x + I * y) ^ 6 / r ^ 6)  -- 2024
    else none
  else none

/-- One entry of the output, tools.c:1664-2042. -/
noncomputable def complexY (l : ℕ) (m : ℤ) (x y z r : ℝ) : Option ℂ :=
  if 0 < l ∧ r < 1 / 10 ^ 10 then some 0 else complexMain l m x y z r

end Sparc.Sph
