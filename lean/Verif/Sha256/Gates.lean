import Verif.Sha256.Table

/-!
# The gates of the SHA-256 chip

Model of table16/message_schedule/schedule_gates.rs, table16/compression/compression_gates.rs and
of the `create_gate` calls of message_schedule.rs 102-286 and compression.rs 494-842.  A gate is
given by the values of its polynomials, without the selector they are multiplied by.
-/

namespace Verif.Sha256

open Verif.Region

variable {F : Type} [Field F]

/-- `ScheduleGate::s_word`: schedule_gates.rs 12-37. -/
def gWord (s0lo s0hi s1lo s1hi w9lo w9hi w16lo w16hi word carry : F) : List F :=
  [(s0lo + s1lo + w9lo + w16lo) + (s0hi + s1hi + w9hi + w16hi) * 2 ^ 16 + carry * 2 ^ 32 * -1
      + word * -1,
    rangeCheck carry 0 3]

/-- `ScheduleGate::s_decompose_0`: schedule_gates.rs 40-48. -/
def gDec0 (lo hi word : F) : List F := [lo + hi * 2 ^ 16 - word]

/-- `ScheduleGate::s_decompose_1`: schedule_gates.rs 53-75. -/
def gDec1 (a b c tagC d tagD word : F) : List F :=
  [a + b * 2 ^ 3 + c * 2 ^ 7 + d * 2 ^ 18 + word * -1, rangeCheck tagC 0 2, rangeCheck tagD 0 4]

/-- `ScheduleGate::s_decompose_2`: schedule_gates.rs 81-112. -/
def gDec2 (a b c d tagD e f g tagG word : F) : List F :=
  [a + b * 2 ^ 3 + c * 2 ^ 7 + d * 2 ^ 10 + e * 2 ^ 17 + f * 2 ^ 18 + g * 2 ^ 19 + word * -1,
    rangeCheck tagG 0 3, rangeCheck tagD 0 0]

/-- `ScheduleGate::s_decompose_3`: schedule_gates.rs 117-142. -/
def gDec3 (a tagA b c d tagD word : F) : List F :=
  [a + b * 2 ^ 10 + c * 2 ^ 17 + d * 2 ^ 19 + word * -1, rangeCheck tagA 0 1, rangeCheck tagD 0 3]

/-- `spread_witness` of the sigma gates: schedule_gates.rs 177-179. -/
def witness (r0e r0o r1e r1o : F) : F := r0e + r0o * 2 + (r1e + r1o * 2) * 2 ^ 32

/-- `ScheduleGate::s_lower_sigma_0`: schedule_gates.rs 145-200. -/
def gLs0 (r0e r0o r1e r1o a sa b bLo sbLo bHi sbHi sc sd : F) : List F :=
  twoBit bLo sbLo ++ twoBit bHi sbHi ++ threeBit a sa ++
    [bLo + bHi * 2 ^ 2 - b,
      witness r0e r0o r1e r1o -
        ((sbLo + sbHi * 2 ^ 4 + sc * 2 ^ 8 + sd * 2 ^ 30) +
          (sc + sd * 2 ^ 22 + sa * 2 ^ 50 + sbLo * 2 ^ 56 + sbHi * 2 ^ 60) +
          (sd + sa * 2 ^ 28 + sbLo * 2 ^ 34 + sbHi * 2 ^ 38 + sc * 2 ^ 42))]

/-- `ScheduleGate::s_lower_sigma_1`: schedule_gates.rs 205-265. -/
def gLs1 (r0e r0o r1e r1o sa b bLo sbLo bMid sbMid bHi sbHi c sc sd : F) : List F :=
  twoBit bLo sbLo ++ twoBit bMid sbMid ++ twoBit c sc ++ threeBit bHi sbHi ++
    [bLo + bMid * 2 ^ 2 + bHi * 2 ^ 4 - b,
      witness r0e r0o r1e r1o -
        ((sbLo + sbMid * 2 ^ 4 + sbHi * 2 ^ 8 + sc * 2 ^ 14 + sd * 2 ^ 18) +
          (sc + sd * 2 ^ 4 + sa * 2 ^ 30 + sbLo * 2 ^ 50 + sbMid * 2 ^ 54 + sbHi * 2 ^ 58) +
          (sd + sa * 2 ^ 26 + sbLo * 2 ^ 46 + sbMid * 2 ^ 50 + sbHi * 2 ^ 54 + sc * 2 ^ 60))]

/-- `ScheduleGate::s_lower_sigma_0_v2`: schedule_gates.rs 270-331. -/
def gLs0v2 (r0e r0o r1e r1o a sa b bLo sbLo bHi sbHi c sc sd se sf sg : F) : List F :=
  twoBit bLo sbLo ++ twoBit bHi sbHi ++ threeBit a sa ++ threeBit c sc ++
    [bLo + bHi * 2 ^ 2 - b,
      witness r0e r0o r1e r1o -
        ((sbLo + sbHi * 2 ^ 4 + sc * 2 ^ 8 + sd * 2 ^ 14 + se * 2 ^ 28 + sf * 2 ^ 30 + sg * 2 ^ 32) +
          (sc + sd * 2 ^ 6 + se * 2 ^ 20 + sf * 2 ^ 22 + sg * 2 ^ 24 + sa * 2 ^ 50 + sbLo * 2 ^ 56
            + sbHi * 2 ^ 60) +
          (sf + sg * 2 ^ 2 + sa * 2 ^ 28 + sbLo * 2 ^ 34 + sbHi * 2 ^ 38 + sc * 2 ^ 42 + sd * 2 ^ 48
            + se * 2 ^ 62))]

/-- `ScheduleGate::s_lower_sigma_1_v2`: schedule_gates.rs 336-394. -/
def gLs1v2 (r0e r0o r1e r1o a sa b bLo sbLo bHi sbHi c sc sd se sf sg : F) : List F :=
  twoBit bLo sbLo ++ twoBit bHi sbHi ++ threeBit a sa ++ threeBit c sc ++
    [bLo + bHi * 2 ^ 2 - b,
      witness r0e r0o r1e r1o -
        ((sd + se * 2 ^ 14 + sf * 2 ^ 16 + sg * 2 ^ 18) +
          (se + sf * 2 ^ 2 + sg * 2 ^ 4 + sa * 2 ^ 30 + sbLo * 2 ^ 36 + sbHi * 2 ^ 40 + sc * 2 ^ 44
            + sd * 2 ^ 50) +
          (sg + sa * 2 ^ 26 + sbLo * 2 ^ 32 + sbHi * 2 ^ 36 + sc * 2 ^ 40 + sd * 2 ^ 46 + se * 2 ^ 60
            + sf * 2 ^ 62))]

/-- `CompressionGate::s_decompose_abcd`: compression_gates.rs 17-80. -/
def gAbcd (a sa b sb tagB cLo scLo cMid scMid cHi scHi d sd tagD lo sLo hi sHi : F) : List F :=
  threeBit cLo scLo ++ threeBit cMid scMid ++ threeBit cHi scHi ++ twoBit a sa ++
    [rangeCheck tagB 0 2, rangeCheck tagD 0 1,
      a + b * 2 ^ 2 + cLo * 2 ^ 13 + cMid * 2 ^ 16 + cHi * 2 ^ 19 + d * 2 ^ 22 + lo * -1
        + hi * 2 ^ 16 * -1,
      sa + sb * 2 ^ 4 + scLo * 2 ^ 26 + scMid * 2 ^ 32 + scHi * 2 ^ 38 + sd * 2 ^ 44 + sLo * -1
        + sHi * 2 ^ 32 * -1]

/-- `CompressionGate::s_decompose_efgh`: compression_gates.rs 85-151. -/
def gEfgh (aLo saLo aHi saHi bLo sbLo bHi sbHi c sc tagC d sd tagD lo sLo hi sHi : F) : List F :=
  threeBit aLo saLo ++ threeBit aHi saHi ++ threeBit bHi sbHi ++ twoBit bLo sbLo ++
    [rangeCheck tagC 0 4, rangeCheck tagD 0 0,
      aLo + aHi * 2 ^ 3 + bLo * 2 ^ 6 + bHi * 2 ^ 8 + c * 2 ^ 11 + d * 2 ^ 25 + lo * -1
        + hi * 2 ^ 16 * -1,
      saLo + saHi * 2 ^ 6 + sbLo * 2 ^ 12 + sbHi * 2 ^ 16 + sc * 2 ^ 22 + sd * 2 ^ 50 + sLo * -1
        + sHi * 2 ^ 32 * -1]

/-- `CompressionGate::s_upper_sigma_0`: compression_gates.rs 156-194. -/
def gUs0 (r0e r0o r1e r1o sa sb scLo scMid scHi sd : F) : List F :=
  [witness r0e r0o r1e r1o +
    ((sb + scLo * 2 ^ 22 + scMid * 2 ^ 28 + scHi * 2 ^ 34 + sd * 2 ^ 40 + sa * 2 ^ 60) +
      (scLo + scMid * 2 ^ 6 + scHi * 2 ^ 12 + sd * 2 ^ 18 + sa * 2 ^ 38 + sb * 2 ^ 42) +
      (sd + sa * 2 ^ 20 + sb * 2 ^ 24 + scLo * 2 ^ 46 + scMid * 2 ^ 52 + scHi * 2 ^ 58)) * -1]

/-- `CompressionGate::s_upper_sigma_1`: compression_gates.rs 199-238. -/
def gUs1 (r0e r0o r1e r1o saLo saHi sbLo sbHi sc sd : F) : List F :=
  [witness r0e r0o r1e r1o +
    ((sbLo + sbHi * 2 ^ 4 + sc * 2 ^ 10 + sd * 2 ^ 38 + saLo * 2 ^ 52 + saHi * 2 ^ 58) +
      (sc + sd * 2 ^ 28 + saLo * 2 ^ 42 + saHi * 2 ^ 48 + sbLo * 2 ^ 54 + sbHi * 2 ^ 58) +
      (sd + saLo * 2 ^ 14 + saHi * 2 ^ 20 + sbLo * 2 ^ 26 + sbHi * 2 ^ 30 + sc * 2 ^ 36)) * -1]

/-- The value of a pair of spread halves, as in `s_ch`: compression_gates.rs 252-258. -/
def halves (lo hi : F) : F := lo + hi * 2 ^ 32

/-- `CompressionGate::s_ch`: compression_gates.rs 242-263. -/
def gCh (p0e p0o p1e p1o seLo seHi sfLo sfHi : F) : List F :=
  [halves (seLo + sfLo) (seHi + sfHi) + (halves p0e p1e + halves p0o p1o * 2) * -1]

/-- `MASK_EVEN_32`: util.rs 3. -/
def maskEven32 : ℕ := 0x55555555

/-- `CompressionGate::s_ch_neg`: compression_gates.rs 268-306. -/
def gChNeg (q0e q0o q1e q1o seLo seHi snLo snHi sgLo sgHi : F) : List F :=
  [snLo + seLo + (maskEven32 : F) * -1, snHi + seHi + (maskEven32 : F) * -1,
    halves (snLo + sgLo) (snHi + sgHi) - (halves q0e q1e + halves q0o q1o * 2)]

/-- `CompressionGate::s_maj`: compression_gates.rs 310-333. -/
def gMaj (m0e m0o m1e m1o saLo saHi sbLo sbHi scLo scHi : F) : List F :=
  [halves saLo saHi + halves sbLo sbHi + halves scLo scHi
    - (halves m0e m1e + halves m0o m1o * 2)]

/-- `CompressionGate::s_h_prime`: compression_gates.rs 337-364. -/
def gHPrime (hpLo hpHi carry sigLo sigHi chLo chHi cnLo cnHi hLo hHi kLo kHi wLo wHi : F) :
    List F :=
  [(hLo + chLo + cnLo + sigLo + kLo + wLo) + (hHi + chHi + cnHi + sigHi + kHi + wHi) * 2 ^ 16
    - carry * 2 ^ 32 - (hpLo + hpHi * 2 ^ 16)]

/-- `CompressionGate::s_a_new`: compression_gates.rs 368-388. -/
def gANew (aLo aHi carry sigLo sigHi majLo majHi hpLo hpHi : F) : List F :=
  [(sigLo + majLo + hpLo) + (sigHi + majHi + hpHi) * 2 ^ 16 - carry * 2 ^ 32 - (aLo + aHi * 2 ^ 16)]

/-- `CompressionGate::s_e_new`: compression_gates.rs 392-410. -/
def gENew (eLo eHi carry dLo dHi hpLo hpHi : F) : List F :=
  [(hpLo + dLo) + (hpHi + dHi) * 2 ^ 16 - carry * 2 ^ 32 - (eLo + eHi * 2 ^ 16)]

/-- `CompressionGate::s_digest`: compression_gates.rs 414-442. -/
def gDigest (lo0 hi0 w0 lo1 hi1 w1 lo2 hi2 w2 lo3 hi3 w3 : F) : List F :=
  [lo0 + hi0 * 2 ^ 16 - w0, lo1 + hi1 * 2 ^ 16 - w1, lo2 + hi2 * 2 ^ 16 - w2,
    lo3 + hi3 * 2 ^ 16 - w3]

open Col in
/-- The gates with the cells they query: message_schedule.rs 102-286, compression.rs 494-842. -/
def gates : Gates Col Sel F :=
  [(.word, fun q => gWord (q a6 (-1)) (q a6 0) (q a7 (-1)) (q a7 0) (q a8 (-1)) (q a8 0)
      (q a3 (-1)) (q a4 (-1)) (q a5 0) (q a9 0)),
    (.dec0, fun q => gDec0 (q a3 0) (q a4 0) (q a5 0)),
    (.dec1, fun q => gDec1 (q a3 1) (q a4 1) (q a1 1) (q a0 1) (q a1 0) (q a0 0) (q a5 0)),
    (.dec2, fun q => gDec2 (q a3 (-1)) (q a1 1) (q a4 (-1)) (q a1 0) (q a0 0) (q a3 1) (q a4 1)
      (q a1 (-1)) (q a0 (-1)) (q a5 0)),
    (.dec3, fun q => gDec3 (q a1 1) (q a0 1) (q a4 1) (q a3 1) (q a1 0) (q a0 0) (q a5 0)),
    (.ls0, fun q => gLs0 (q a2 (-1)) (q a2 0) (q a2 1) (q a3 0) (q a5 1) (q a6 1) (q a6 0)
      (q a3 (-1)) (q a4 (-1)) (q a5 (-1)) (q a6 (-1)) (q a4 0) (q a5 0)),
    (.ls0v2, fun q => gLs0v2 (q a2 (-1)) (q a2 0) (q a2 1) (q a3 0) (q a3 1) (q a4 1) (q a6 0)
      (q a3 (-1)) (q a4 (-1)) (q a5 (-1)) (q a6 (-1)) (q a5 1) (q a6 1) (q a4 0) (q a7 0) (q a7 1)
      (q a5 0)),
    (.ls1v2, fun q => gLs1v2 (q a2 (-1)) (q a2 0) (q a2 1) (q a3 0) (q a3 1) (q a4 1) (q a6 0)
      (q a3 (-1)) (q a4 (-1)) (q a5 (-1)) (q a6 (-1)) (q a5 1) (q a6 1) (q a4 0) (q a7 0) (q a7 1)
      (q a5 0)),
    (.ls1, fun q => gLs1 (q a2 (-1)) (q a2 0) (q a2 1) (q a3 0) (q a4 0) (q a6 0) (q a3 (-1))
      (q a4 (-1)) (q a5 (-1)) (q a6 (-1)) (q a5 1) (q a6 1) (q a3 1) (q a4 1) (q a5 0)),
    (.abcd, fun q => gAbcd (q a3 1) (q a4 1) (q a1 0) (q a2 0) (q a0 0) (q a3 0) (q a4 0) (q a5 0)
      (q a6 0) (q a5 1) (q a6 1) (q a1 1) (q a2 1) (q a0 1) (q a7 0) (q a8 0) (q a7 1) (q a8 1)),
    (.efgh, fun q => gEfgh (q a3 1) (q a4 1) (q a5 1) (q a6 1) (q a3 0) (q a4 0) (q a5 0) (q a6 0)
      (q a1 1) (q a2 1) (q a0 1) (q a1 0) (q a2 0) (q a0 0) (q a7 0) (q a8 0) (q a7 1) (q a8 1)),
    (.us0, fun q => gUs0 (q a2 (-1)) (q a2 0) (q a2 1) (q a3 0) (q a3 1) (q a5 0) (q a3 (-1))
      (q a4 (-1)) (q a4 1) (q a4 0)),
    (.us1, fun q => gUs1 (q a2 (-1)) (q a2 0) (q a2 1) (q a3 0) (q a3 1) (q a4 1) (q a3 (-1))
      (q a4 (-1)) (q a5 0) (q a4 0)),
    (.ch, fun q => gCh (q a2 (-1)) (q a2 0) (q a2 1) (q a3 0) (q a3 (-1)) (q a4 (-1)) (q a3 1)
      (q a4 1)),
    (.chNeg, fun q => gChNeg (q a2 (-1)) (q a2 0) (q a2 1) (q a3 0) (q a5 (-1)) (q a5 0)
      (q a3 (-1)) (q a4 (-1)) (q a3 1) (q a4 1)),
    (.maj, fun q => gMaj (q a2 (-1)) (q a2 0) (q a2 1) (q a3 0) (q a4 (-1)) (q a5 (-1)) (q a4 0)
      (q a5 0) (q a4 1) (q a5 1)),
    (.hPrime, fun q => gHPrime (q a7 1) (q a8 1) (q a9 1) (q a4 0) (q a5 0) (q a1 0) (q a6 1)
      (q a5 (-1)) (q a5 1) (q a7 (-1)) (q a7 0) (q a6 (-1)) (q a6 0) (q a8 (-1)) (q a8 0)),
    (.aNew, fun q => gANew (q a8 0) (q a8 1) (q a9 0) (q a6 0) (q a6 1) (q a1 0) (q a3 (-1))
      (q a7 (-1)) (q a8 (-1))),
    (.eNew, fun q => gENew (q a8 0) (q a8 1) (q a9 1) (q a7 0) (q a7 1) (q a7 (-1)) (q a8 (-1))),
    (.digest, fun q => gDigest (q a3 0) (q a4 0) (q a5 0) (q a6 0) (q a7 0) (q a8 0) (q a3 1)
      (q a4 1) (q a5 1) (q a6 1) (q a7 1) (q a8 1))]

end Verif.Sha256
