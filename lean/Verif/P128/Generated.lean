import Verif.P128.Fast
import Verif.P128.Model

/-!
# The kernel runs the generator (C78)
-/

namespace Verif.P128

open Verif.Grain Verif.Pasta

/-- The state after the bits thrown away. -/
def start : ℕ := 536347747800424896364511

/-- The state after the round constants. -/
def middle : ℕ := 13353602700364174723163

/-- The numbers drawn for the matrix. -/
def drawn : List ℕ := [
  31176390828649731765056348234261358616561427215571691777099041187831825738425,
  29179167138483751249324497097265818627652646441911742218361247414328579510134,
  51891190722752610406398736015426865752326213221791274134597976562762732285,
  892476326268955098896472733485447610328396848944383968577394760930069705430,
  37952298597393049465346151168344086697951713318096347983365855309034523223740,
  4758711193636226069117229716506430184141138590427540267789211916259338761597]

/-- The numbers of the list, in two parts. -/
theorem fastElements_drop {l : List ℕ} {a c s m e : ℕ}
    (h : fastElements (2 ^ 254) vesta 255 2000 50 ((l.drop a).take c) s = some m)
    (h' : fastElements (2 ^ 254) vesta 255 2000 50 (l.drop (a + c)) m = some e) :
    fastElements (2 ^ 254) vesta 255 2000 50 (l.drop a) s = some e := by
  rw [← List.take_append_drop c (l.drop a), List.drop_drop]
  generalize (l.drop a).take c = l₁ at h ⊢
  induction l₁ generalizing s with
  | nil =>
    cases h
    exact h'
  | cons v l₁ ih =>
    rw [List.cons_append]
    unfold fastElements at h ⊢
    split at h <;> rename_i h1
    · cases h
    split at h
    · cases h
    split_ifs at h with hv
    rw [if_pos hv]
    exact ih h

set_option maxRecDepth 100000 in
theorem run_0 : fastElements (2 ^ 254) vesta 255 2000 50 ((fpRoundConstants.flatten.drop 0).take 16)
    536347747800424896364511 = some 832254846089168639119325 := by
  decide +kernel

set_option maxRecDepth 100000 in
theorem run_1 : fastElements (2 ^ 254) vesta 255 2000 50 ((fpRoundConstants.flatten.drop 16).take 16)
    832254846089168639119325 = some 147276770699790674546097 := by
  decide +kernel

set_option maxRecDepth 100000 in
theorem run_2 : fastElements (2 ^ 254) vesta 255 2000 50 ((fpRoundConstants.flatten.drop 32).take 16)
    147276770699790674546097 = some 362319127191354858146492 := by
  decide +kernel

set_option maxRecDepth 100000 in
theorem run_3 : fastElements (2 ^ 254) vesta 255 2000 50 ((fpRoundConstants.flatten.drop 48).take 16)
    362319127191354858146492 = some 473016772904909962139275 := by
  decide +kernel

set_option maxRecDepth 100000 in
theorem run_4 : fastElements (2 ^ 254) vesta 255 2000 50 ((fpRoundConstants.flatten.drop 64).take 16)
    473016772904909962139275 = some 1015582703094098974219957 := by
  decide +kernel

set_option maxRecDepth 100000 in
theorem run_5 : fastElements (2 ^ 254) vesta 255 2000 50 ((fpRoundConstants.flatten.drop 80).take 16)
    1015582703094098974219957 = some 1101228619341422131247479 := by
  decide +kernel

set_option maxRecDepth 100000 in
theorem run_6 : fastElements (2 ^ 254) vesta 255 2000 50 ((fpRoundConstants.flatten.drop 96).take 16)
    1101228619341422131247479 = some 665060698148883428799295 := by
  decide +kernel

set_option maxRecDepth 100000 in
theorem run_7 : fastElements (2 ^ 254) vesta 255 2000 50 ((fpRoundConstants.flatten.drop 112).take 16)
    665060698148883428799295 = some 734612351374954251914673 := by
  decide +kernel

set_option maxRecDepth 100000 in
theorem run_8 : fastElements (2 ^ 254) vesta 255 2000 50 ((fpRoundConstants.flatten.drop 128).take 16)
    734612351374954251914673 = some 1113558955535890706812441 := by
  decide +kernel

set_option maxRecDepth 100000 in
theorem run_9 : fastElements (2 ^ 254) vesta 255 2000 50 ((fpRoundConstants.flatten.drop 144).take 16)
    1113558955535890706812441 = some 457496704659234539560774 := by
  decide +kernel

set_option maxRecDepth 100000 in
theorem run_10 : fastElements (2 ^ 254) vesta 255 2000 50 ((fpRoundConstants.flatten.drop 160).take 16)
    457496704659234539560774 = some 789889364082897592703016 := by
  decide +kernel

set_option maxRecDepth 100000 in
theorem run_11 : fastElements (2 ^ 254) vesta 255 2000 50 ((fpRoundConstants.flatten.drop 176).take 16)
    789889364082897592703016 = some 13353602700364174723163 := by
  decide +kernel

theorem run_elements :
    fastElements (2 ^ 254) vesta 255 2000 50 fpRoundConstants.flatten start = some middle :=
  fastElements_drop (a := 0) run_0 <|
  fastElements_drop (a := 16) run_1 <|
  fastElements_drop (a := 32) run_2 <|
  fastElements_drop (a := 48) run_3 <|
  fastElements_drop (a := 64) run_4 <|
  fastElements_drop (a := 80) run_5 <|
  fastElements_drop (a := 96) run_6 <|
  fastElements_drop (a := 112) run_7 <|
  fastElements_drop (a := 128) run_8 <|
  fastElements_drop (a := 144) run_9 <|
  fastElements_drop (a := 160) run_10 <|
  fastElements_drop (a := 176) run_11 <|
  by decide +kernel

theorem run_numbers : fastNumbers 255 2000 drawn middle = true := by
  decide +kernel

theorem same_constants : fqRoundConstants = fpRoundConstants := by
  decide +kernel

end Verif.P128
