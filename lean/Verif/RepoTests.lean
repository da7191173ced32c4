import Verif.Codec
import Verif.Tables
/-!
# The test vectors of the repository, replayed on the model

These are tests, not proofs: finitely many inputs.  They support the claim that the model is the code: the project cannot be built here, but its
own tests say what it does on these inputs, and each is repeated below on the model.  No theorem depends on this file.

Where the tests of the repository use the host's time zone, `testEnv` has one of two hours east of UTC; New York is five hours west.
A url is its text.
-/

namespace Ics.RepoTests

/-- The zone of types_test.go:118-120 and decoder_test.go:93. -/
def newYork : Str := c!"America/New_York"

/-- Stands for what the tests get from the machine and the library (types_test.go, decoder_test.go, encoder_test.go). -/
def testEnv : Env :=
  { urlParse := fun s => some ⟨s⟩
    urlString := fun u => u.id
    floatParse := fun s => if s = c!"48.85299" then some 1 else if s = c!"2.36885" then some 2 else none
    floatFormat := fun f => if f = 1 then c!"48.85299" else if f = 2 then c!"2.36885" else []
    loadZone := fun n => if n = newYork then some 0 else none
    zoneOff := fun _ _ => -18000
    localOff := fun _ => 7200 }

/-- `time.LoadLocation("America/New_York")`.  types_test.go:116-143, decoder_test.go:93. -/
def ny : Loc := .zone newYork 0 0

/-- `time.Date(y, m, d, h, mi, s, 0, l)`.  Used throughout types_test.go, decoder_test.go and encoder_test.go. -/
def goDate (y : Int) (m d h mi s : Nat) (l : Loc) : GoTime :=
  ⟨instant testEnv l (dayNumber y m d * 86400 + h * 3600 + mi * 60 + s), 0, l⟩

/-- What `testType` (types_test.go:28-55) checks of a vector without error: the data decode to the match, which is valid and is encoded as the
output. -/
def agrees {α : Type} [DecidableEq α] (decoded : Res α) (match_ : α) (valid : α → Res Unit) (enc : α → Str) (output : Str) : Bool :=
  decide (decoded = .ok match_) && decide (valid match_ = .ok ()) && decide (enc match_ = output)

/-- For types whose `valid` does nothing.  E.g. types.go:49-51. -/
def fine {α : Type} (_ : α) : Res Unit := .ok ()


/-! ## types_test.go: TestBinary, TestBoolean -/

/-- TestBinary 1 -/
example : Binary.decode [] c!"" = .err .invalidEncoding := by decide +kernel

/-- TestBinary 2 -/
example : agrees (Binary.decode c!"BASE64" c!"MTIzNDU=") [49, 50, 51, 52, 53] fine Binary.encode c!"MTIzNDU=" = true := by decide +kernel

/-- TestBoolean 1 -/
example : agrees (Boolean.decode c!"False") false fine Boolean.encode c!"FALSE" = true := by decide +kernel

/-- TestBoolean 2 -/
example : agrees (Boolean.decode c!"true") true fine Boolean.encode c!"TRUE" = true := by decide +kernel

/-- TestBoolean 3 -/
example : Boolean.decode c!"HotDog" = .err .invalidBoolean := by decide +kernel

/-! ## types_test.go: TestDate, TestDateTime, TestTime -/

/-- TestDate 1 -/
example : agrees (Date.decode c!"20011225") (goDate 2001 12 25 0 0 0 .utc) GoTime.valid (Date.encode testEnv) c!"20011225" = true := by decide +kernel

/-- TestDate 2 -/
example : agrees (Date.decode c!"20081111") (goDate 2008 11 11 0 0 0 .utc) GoTime.valid (Date.encode testEnv) c!"20081111" = true := by decide +kernel

/-- TestDateTime 1 -/
example : agrees (DateTime.decode testEnv 0 none c!"20011225T131415") (goDate 2001 12 25 13 14 15 .local) GoTime.valid (DateTime.encode testEnv)
    c!"20011225T131415" = true := by decide +kernel

/-- TestDateTime 2 -/
example : agrees (DateTime.decode testEnv 0 none c!"20011225T131415Z") (goDate 2001 12 25 13 14 15 .utc) GoTime.valid (DateTime.encode testEnv)
    c!"20011225T131415Z" = true := by decide +kernel

/-- TestDateTime 3 -/
example : agrees (DateTime.decode testEnv 0 (some newYork) c!"20011225T131415") (goDate 2001 12 25 13 14 15 ny) GoTime.valid
    (DateTime.encode testEnv) c!"20011225T131415" = true := by decide +kernel

/-- TestTime 1 -/
example : agrees (Time.decode testEnv 0 none c!"010203") (goDate 0 1 1 1 2 3 .local) GoTime.valid (Time.encode testEnv) c!"010203" = true := by decide +kernel

/-- TestTime 2 -/
example : agrees (Time.decode testEnv 0 none c!"010203Z") (goDate 0 1 1 1 2 3 .utc) GoTime.valid (Time.encode testEnv) c!"010203Z" = true := by decide +kernel

/-- TestTime 3 -/
example : agrees (Time.decode testEnv 0 (some newYork) c!"010203") (goDate 0 1 1 1 2 3 ny) GoTime.valid (Time.encode testEnv) c!"010203" = true := by decide +kernel

/-! ## types_test.go: TestDuration -/

/-- TestDuration 1 -/
example : agrees (Duration.decode c!"P1W") { weeks := 1 } fine Duration.encode c!"P1W" = true := by decide +kernel

/-- TestDuration 2 -/
example : agrees (Duration.decode c!"P1D") { days := 1 } fine Duration.encode c!"P1D" = true := by decide +kernel

/-- TestDuration 3 -/
example : agrees (Duration.decode c!"PT1H") { hours := 1 } fine Duration.encode c!"PT1H" = true := by decide +kernel

/-- TestDuration 4 -/
example : agrees (Duration.decode c!"PT1M") { minutes := 1 } fine Duration.encode c!"PT1M" = true := by decide +kernel

/-- TestDuration 5 -/
example : agrees (Duration.decode c!"PT1S") { seconds := 1 } fine Duration.encode c!"PT1S" = true := by decide +kernel

/-- TestDuration 6 -/
example : agrees (Duration.decode c!"P25W") { weeks := 25 } fine Duration.encode c!"P25W" = true := by decide +kernel

/-- TestDuration 7 -/
example : Duration.decode c!"P25W1D" = .err .invalidDuration := by decide +kernel

/-- TestDuration 8 -/
example : Duration.decode c!"P25G" = .err .invalidDuration := by decide +kernel

/-- TestDuration 9 -/
example : agrees (Duration.decode c!"P1DT2H3M4S") { days := 1, hours := 2, minutes := 3, seconds := 4 } fine Duration.encode c!"P1DT2H3M4S" = true := by decide +kernel

/-- TestDuration 10 -/
example : agrees (Duration.decode c!"PT0S") {  } fine Duration.encode c!"PT0S" = true := by decide +kernel

/-- TestDuration 11 -/
example : agrees (Duration.decode c!"+P1DT2H3M4S") { days := 1, hours := 2, minutes := 3, seconds := 4 } fine Duration.encode c!"P1DT2H3M4S" = true := by decide +kernel

/-- TestDuration 12 -/
example : agrees (Duration.decode c!"-P1DT2H3M4S") { neg := true, days := 1, hours := 2, minutes := 3, seconds := 4 } fine Duration.encode c!"-P1DT2H3M4S" = true := by decide +kernel

/-! ## types_test.go: TestPeriod -/

/-- TestPeriod 1 -/
example : agrees (Period.decode testEnv 0 none c!"19970101T180000Z/19970102T070000Z")
    { start := goDate 1997 1 1 18 0 0 .utc, stop := goDate 1997 1 2 7 0 0 .utc, dur := {} } Period.valid (Period.encode testEnv) c!"19970101T180000Z/19970102T070000Z" = true := by decide +kernel

/-- TestPeriod 2 -/
example : agrees (Period.decode testEnv 0 none c!"19970101T180000Z/PT5H30M")
    { start := goDate 1997 1 1 18 0 0 .utc, stop := {}, dur := { hours := 5, minutes := 30 } } Period.valid (Period.encode testEnv) c!"19970101T180000Z/PT5H30M" = true := by decide +kernel

/-! ## types_test.go: TestRecur -/

/-- TestRecur 1 -/
example : agrees (Recur.decode testEnv 0 none c!"FREQ=SECONDLY") {  } Recur.valid (Recur.encode testEnv) c!"FREQ=SECONDLY" = true := by decide +kernel

/-- TestRecur 2 -/
example : agrees (Recur.decode testEnv 0 none c!"FREQ=MINUTELY") { freq := 1 } Recur.valid (Recur.encode testEnv) c!"FREQ=MINUTELY" = true := by decide +kernel

/-- TestRecur 3 -/
example : agrees (Recur.decode testEnv 0 none c!"FREQ=HOURLY;COUNT=10") { freq := 2, count := 10 } Recur.valid (Recur.encode testEnv) c!"FREQ=HOURLY;COUNT=10" = true := by decide +kernel

/-- TestRecur 4 -/
example : agrees (Recur.decode testEnv 0 none c!"FREQ=DAILY;UNTIL=20011125") { freq := 3, until_ := goDate 2001 11 25 0 0 0 .utc } Recur.valid (Recur.encode testEnv) c!"FREQ=DAILY;UNTIL=20011125" = true := by decide +kernel

/-- TestRecur 5 -/
example : agrees (Recur.decode testEnv 0 none c!"FREQ=WEEKLY;UNTIL=20011125T131415") { freq := 4, untilTime := true, until_ := goDate 2001 11 25 13 14 15 .local } Recur.valid (Recur.encode testEnv) c!"FREQ=WEEKLY;UNTIL=20011125T131415" = true := by decide +kernel

/-- TestRecur 6 -/
example : agrees (Recur.decode testEnv 0 none c!"UNTIL=20011125;FREQ=MONTHLY") { freq := 5, until_ := goDate 2001 11 25 0 0 0 .utc } Recur.valid (Recur.encode testEnv) c!"FREQ=MONTHLY;UNTIL=20011125" = true := by decide +kernel

/-- TestRecur 7 -/
example : agrees (Recur.decode testEnv 0 none c!"FREQ=YEARLY;UNTIL=20011125T131415Z") { freq := 6, untilTime := true, until_ := goDate 2001 11 25 13 14 15 .utc } Recur.valid (Recur.encode testEnv) c!"FREQ=YEARLY;UNTIL=20011125T131415Z" = true := by decide +kernel

/-- TestRecur 8 -/
example : Recur.decode testEnv 0 none c!"FREQ=UNKNOWN" = .err .invalidRecur := by decide +kernel

/-- TestRecur 9 -/
example : Recur.decode testEnv 0 none c!"FREQ=SECONDLY;COUNT=-1" = .err .invalidRecur := by decide +kernel

/-- TestRecur 10 -/
example : Recur.decode testEnv 0 none c!"FREQ=SECONDLY;UNTIL=ABC" = .err .invalidRecur := by decide +kernel

/-- TestRecur 11 -/
example : agrees (Recur.decode testEnv 0 none c!"FREQ=SECONDLY;INTERVAL=10") { interval := 10 } Recur.valid (Recur.encode testEnv) c!"FREQ=SECONDLY;INTERVAL=10" = true := by decide +kernel

/-- TestRecur 12 -/
example : agrees (Recur.decode testEnv 0 none c!"FREQ=SECONDLY;BYSECOND=1,2,60") { bySecond := [1, 2, 60] } Recur.valid (Recur.encode testEnv) c!"FREQ=SECONDLY;BYSECOND=1,2,60" = true := by decide +kernel

/-- TestRecur 13 -/
example : Recur.decode testEnv 0 none c!"FREQ=SECONDLY;BYSECOND=1,2,61" = .err .invalidRecur := by decide +kernel

/-- TestRecur 14 -/
example : Recur.decode testEnv 0 none c!"FREQ=SECONDLY;BYSECOND=1,2,-1" = .err .invalidRecur := by decide +kernel

/-- TestRecur 15 -/
example : Recur.decode testEnv 0 none c!"FREQ=SECONDLY;BYSECOND=1,2,A" = .err .invalidRecur := by decide +kernel

/-- TestRecur 16 -/
example : agrees (Recur.decode testEnv 0 none c!"FREQ=SECONDLY;BYMINUTE=1,2,59") { byMinute := [1, 2, 59] } Recur.valid (Recur.encode testEnv) c!"FREQ=SECONDLY;BYMINUTE=1,2,59" = true := by decide +kernel

/-- TestRecur 17 -/
example : Recur.decode testEnv 0 none c!"FREQ=SECONDLY;BYMINUTE=1,2,60" = .err .invalidRecur := by decide +kernel

/-- TestRecur 18 -/
example : Recur.decode testEnv 0 none c!"FREQ=SECONDLY;BYMINUTE=1,2,-1" = .err .invalidRecur := by decide +kernel

/-- TestRecur 19 -/
example : Recur.decode testEnv 0 none c!"FREQ=SECONDLY;BYMINUTE=1,2,A" = .err .invalidRecur := by decide +kernel

/-- TestRecur 20 -/
example : agrees (Recur.decode testEnv 0 none c!"FREQ=SECONDLY;BYHOUR=1,2,23") { byHour := [1, 2, 23] } Recur.valid (Recur.encode testEnv) c!"FREQ=SECONDLY;BYHOUR=1,2,23" = true := by decide +kernel

/-- TestRecur 21 -/
example : Recur.decode testEnv 0 none c!"FREQ=SECONDLY;BYHOUR=1,2,24" = .err .invalidRecur := by decide +kernel

/-- TestRecur 22 -/
example : Recur.decode testEnv 0 none c!"FREQ=SECONDLY;BYHOUR=1,2,-1" = .err .invalidRecur := by decide +kernel

/-- TestRecur 23 -/
example : Recur.decode testEnv 0 none c!"FREQ=SECONDLY;BYHOUR=1,2,A" = .err .invalidRecur := by decide +kernel

/-- TestRecur 24 -/
example : agrees (Recur.decode testEnv 0 none c!"FREQ=SECONDLY;BYDAY=WE,+2FR,53MO,-53SU,-9TU") { byDay := [⟨4, 0⟩, ⟨6, 2⟩, ⟨2, 53⟩, ⟨1, -53⟩, ⟨3, -9⟩] } Recur.valid (Recur.encode testEnv) c!"FREQ=SECONDLY;BYDAY=WE,2FR,53MO,-53SU,-9TU" = true := by decide +kernel

/-- TestRecur 25 -/
example : Recur.decode testEnv 0 none c!"FREQ=SECONDLY;BYDAY=UN" = .err .invalidRecur := by decide +kernel

/-- TestRecur 26 -/
example : Recur.decode testEnv 0 none c!"FREQ=SECONDLY;BYDAY=-54MO" = .err .invalidRecur := by decide +kernel

/-- TestRecur 27 -/
example : Recur.decode testEnv 0 none c!"FREQ=SECONDLY;BYDAY=54MO" = .err .invalidRecur := by decide +kernel

/-- TestRecur 28 -/
example : Recur.decode testEnv 0 none c!"FREQ=SECONDLY;BYDAY=MON" = .err .invalidRecur := by decide +kernel

/-- TestRecur 29 -/
example : Recur.decode testEnv 0 none c!"FREQ=SECONDLY;BYDAY=MO," = .err .invalidRecur := by decide +kernel

/-- TestRecur 30 -/
example : agrees (Recur.decode testEnv 0 none c!"FREQ=SECONDLY;BYMONTHDAY=1,31,-1,-31") { byMonthDay := [1, 31, -1, -31] } Recur.valid (Recur.encode testEnv) c!"FREQ=SECONDLY;BYMONTHDAY=1,31,-1,-31" = true := by decide +kernel

/-- TestRecur 31 -/
example : Recur.decode testEnv 0 none c!"FREQ=SECONDLY;BYMONTHDAY=32" = .err .invalidRecur := by decide +kernel

/-- TestRecur 32 -/
example : Recur.decode testEnv 0 none c!"FREQ=SECONDLY;BYMONTHDAY=-32" = .err .invalidRecur := by decide +kernel

/-- TestRecur 33 -/
example : Recur.decode testEnv 0 none c!"FREQ=SECONDLY;BYMONTHDAY=0" = .err .invalidRecur := by decide +kernel

/-- TestRecur 34 -/
example : Recur.decode testEnv 0 none c!"FREQ=SECONDLY;BYMONTHDAY=A" = .err .invalidRecur := by decide +kernel

/-- TestRecur 35 -/
example : Recur.decode testEnv 0 none c!"FREQ=SECONDLY;BYMONTHDAY=1," = .err .invalidRecur := by decide +kernel

/-- TestRecur 36 -/
example : agrees (Recur.decode testEnv 0 none c!"FREQ=SECONDLY;BYYEARDAY=1,366,-1,-366") { byYearDay := [1, 366, -1, -366] } Recur.valid (Recur.encode testEnv) c!"FREQ=SECONDLY;BYYEARDAY=1,366,-1,-366" = true := by decide +kernel

/-- TestRecur 37 -/
example : Recur.decode testEnv 0 none c!"FREQ=SECONDLY;BYYEARDAY=0" = .err .invalidRecur := by decide +kernel

/-- TestRecur 38 -/
example : Recur.decode testEnv 0 none c!"FREQ=SECONDLY;BYYEARDAY=367" = .err .invalidRecur := by decide +kernel

/-- TestRecur 39 -/
example : Recur.decode testEnv 0 none c!"FREQ=SECONDLY;BYYEARDAY=-367" = .err .invalidRecur := by decide +kernel

/-- TestRecur 40 -/
example : Recur.decode testEnv 0 none c!"FREQ=SECONDLY;BYYEARDAY=1," = .err .invalidRecur := by decide +kernel

/-- TestRecur 41 -/
example : Recur.decode testEnv 0 none c!"FREQ=SECONDLY;BYYEARDAY=A" = .err .invalidRecur := by decide +kernel

/-- TestRecur 42 -/
example : agrees (Recur.decode testEnv 0 none c!"FREQ=SECONDLY;BYWEEKNO=1,52,-1,-52") { byWeekNum := [1, 52, -1, -52] } Recur.valid (Recur.encode testEnv) c!"FREQ=SECONDLY;BYWEEKNO=1,52,-1,-52" = true := by decide +kernel

/-- TestRecur 43 -/
example : Recur.decode testEnv 0 none c!"FREQ=SECONDLY;BYYWEEKNO=1,0" = .err .invalidRecur := by decide +kernel

/-- TestRecur 44 -/
example : Recur.decode testEnv 0 none c!"FREQ=SECONDLY;BYYWEEKNO=54" = .err .invalidRecur := by decide +kernel

/-- TestRecur 45 -/
example : Recur.decode testEnv 0 none c!"FREQ=SECONDLY;BYYWEEKNO=-54" = .err .invalidRecur := by decide +kernel

/-- TestRecur 46 -/
example : Recur.decode testEnv 0 none c!"FREQ=SECONDLY;BYYWEEKNO=A" = .err .invalidRecur := by decide +kernel

/-- TestRecur 47 -/
example : agrees (Recur.decode testEnv 0 none c!"FREQ=SECONDLY;BYMONTH=1,2,12") { byMonth := [1, 2, 12] } Recur.valid (Recur.encode testEnv) c!"FREQ=SECONDLY;BYMONTH=1,2,12" = true := by decide +kernel

/-- TestRecur 48 -/
example : Recur.decode testEnv 0 none c!"FREQ=SECONDLY;BYMONTH=1,2,13" = .err .invalidRecur := by decide +kernel

/-- TestRecur 49 -/
example : Recur.decode testEnv 0 none c!"FREQ=SECONDLY;BYMONTH=1,2,-1" = .err .invalidRecur := by decide +kernel

/-- TestRecur 50 -/
example : Recur.decode testEnv 0 none c!"FREQ=SECONDLY;BYMONTH=1,2,A" = .err .invalidRecur := by decide +kernel

/-- TestRecur 51 -/
example : agrees (Recur.decode testEnv 0 none c!"FREQ=SECONDLY;BYSETPOS=1,366,-1,-366") { bySetPos := [1, 366, -1, -366] } Recur.valid (Recur.encode testEnv) c!"FREQ=SECONDLY;BYSETPOS=1,366,-1,-366" = true := by decide +kernel

/-- TestRecur 52 -/
example : Recur.decode testEnv 0 none c!"FREQ=SECONDLY;BYSETPOS=0" = .err .invalidRecur := by decide +kernel

/-- TestRecur 53 -/
example : Recur.decode testEnv 0 none c!"FREQ=SECONDLY;BYSETPOS=367" = .err .invalidRecur := by decide +kernel

/-- TestRecur 54 -/
example : Recur.decode testEnv 0 none c!"FREQ=SECONDLY;BYSETPOS=-367" = .err .invalidRecur := by decide +kernel

/-- TestRecur 55 -/
example : Recur.decode testEnv 0 none c!"FREQ=SECONDLY;BYSETPOS=1," = .err .invalidRecur := by decide +kernel

/-- TestRecur 56 -/
example : Recur.decode testEnv 0 none c!"FREQ=SECONDLY;BYSETPOS=A" = .err .invalidRecur := by decide +kernel

/-- TestRecur 57 -/
example : agrees (Recur.decode testEnv 0 none c!"FREQ=SECONDLY;WKST=SU") { weekStart := 1 } Recur.valid (Recur.encode testEnv) c!"FREQ=SECONDLY;WKST=SU" = true := by decide +kernel

/-- TestRecur 58 -/
example : agrees (Recur.decode testEnv 0 none c!"FREQ=SECONDLY;WKST=MO") { weekStart := 2 } Recur.valid (Recur.encode testEnv) c!"FREQ=SECONDLY;WKST=MO" = true := by decide +kernel

/-- TestRecur 59 -/
example : agrees (Recur.decode testEnv 0 none c!"FREQ=SECONDLY;WKST=TU") { weekStart := 3 } Recur.valid (Recur.encode testEnv) c!"FREQ=SECONDLY;WKST=TU" = true := by decide +kernel

/-- TestRecur 60 -/
example : agrees (Recur.decode testEnv 0 none c!"FREQ=SECONDLY;WKST=WE") { weekStart := 4 } Recur.valid (Recur.encode testEnv) c!"FREQ=SECONDLY;WKST=WE" = true := by decide +kernel

/-- TestRecur 61 -/
example : agrees (Recur.decode testEnv 0 none c!"FREQ=SECONDLY;WKST=TH") { weekStart := 5 } Recur.valid (Recur.encode testEnv) c!"FREQ=SECONDLY;WKST=TH" = true := by decide +kernel

/-- TestRecur 62 -/
example : agrees (Recur.decode testEnv 0 none c!"FREQ=SECONDLY;WKST=FR") { weekStart := 6 } Recur.valid (Recur.encode testEnv) c!"FREQ=SECONDLY;WKST=FR" = true := by decide +kernel

/-- TestRecur 63 -/
example : agrees (Recur.decode testEnv 0 none c!"FREQ=SECONDLY;WKST=SA") { weekStart := 7 } Recur.valid (Recur.encode testEnv) c!"FREQ=SECONDLY;WKST=SA" = true := by decide +kernel

/-- TestRecur 64 -/
example : Recur.decode testEnv 0 none c!"FREQ=SECONDLY;WKST=UN" = .err .invalidRecur := by decide +kernel

/-- TestRecur 65 -/
example : Recur.decode testEnv 0 none c!"FREQ=SECONDLY;" = .err .invalidRecur := by decide +kernel

/-- TestRecur 66 -/
example : Recur.decode testEnv 0 none c!"FREQ=SECONDLY;UNKNOWN=1" = .err .invalidRecur := by decide +kernel

/-- TestRecur 67 -/
example : Recur.decode testEnv 0 none c!"FREQ=SECONDLY;UNKNOWN" = .err .invalidRecur := by decide +kernel

/-! ## types_test.go: TestText, TestUTCOffset -/

/-- TestText 1 -/
example : agrees (Text.decode c!"") c!"" Text.valid Text.encode c!"" = true := by decide +kernel

/-- TestText 2 -/
example : agrees (Text.decode c!"Jackdaws love my big Sphinx of quartz") c!"Jackdaws love my big Sphinx of quartz" Text.valid Text.encode
    c!"Jackdaws love my big Sphinx of quartz" = true := by decide +kernel

/-- TestText 3 -/
example : agrees (Text.decode c!"Project XYZ Final Review\\nConference Room - 3B\\nCome Prepared.") c!"Project XYZ Final Review\nConference Room - 3B\nCome Prepared." Text.valid Text.encode
    c!"Project XYZ Final Review\\nConference Room - 3B\\nCome Prepared." = true := by decide +kernel

/-- TestText 4 -/
example : agrees (Text.decode c!"\\\\\\;\\,\\N\\n") c!"\\;,\n\n" Text.valid Text.encode c!"\\\\\\;\\,\\n\\n" = true := by decide +kernel

/-- TestText 5 -/
example : Text.decode c!";" = .err .invalidText := by decide +kernel

/-- TestText 6 -/
example : Text.decode c!"," = .err .invalidText := by decide +kernel

/-- TestUTCOffset 1 -/
example : agrees (UTCOffset.decode c!"0100") (3600) fine UTCOffset.encode c!"0100" = true := by decide +kernel

/-- TestUTCOffset 2 -/
example : agrees (UTCOffset.decode c!"0230") (9000) fine UTCOffset.encode c!"0230" = true := by decide +kernel

/-- TestUTCOffset 3 -/
example : agrees (UTCOffset.decode c!"023045") (9045) fine UTCOffset.encode c!"023045" = true := by decide +kernel

/-- TestUTCOffset 4 -/
example : agrees (UTCOffset.decode c!"+0230") (9000) fine UTCOffset.encode c!"0230" = true := by decide +kernel

/-- TestUTCOffset 5 -/
example : agrees (UTCOffset.decode c!"-0230") (-9000) fine UTCOffset.encode c!"-0230" = true := by decide +kernel

/-- TestUTCOffset 6 -/
example : UTCOffset.decode c!"0260" = .err .invalidOffset := by decide +kernel

/-- TestUTCOffset 7 -/
example : UTCOffset.decode c!"020060" = .err .invalidOffset := by decide +kernel

/-- TestUTCOffset 8 -/
example : UTCOffset.decode c!"0261" = .err .invalidOffset := by decide +kernel

/-- TestUTCOffset 9 -/
example : UTCOffset.decode c!"020061" = .err .invalidOffset := by decide +kernel

/-- TestUTCOffset 10 -/
example : UTCOffset.decode c!"0" = .err .invalidOffset := by decide +kernel

/-- TestUTCOffset 11 -/
example : UTCOffset.decode c!"00" = .err .invalidOffset := by decide +kernel

/-- TestUTCOffset 12 -/
example : UTCOffset.decode c!"000" = .err .invalidOffset := by decide +kernel

/-- TestUTCOffset 13 -/
example : UTCOffset.decode c!"00000" = .err .invalidOffset := by decide +kernel

/-- TestUTCOffset 14 -/
example : UTCOffset.decode c!"T" = .err .invalidOffset := by decide +kernel

/-- TestUTCOffset 15 -/
example : UTCOffset.decode c!"0000T" = .err .invalidOffset := by decide +kernel

/-- TestUTCOffset 16 -/
example : UTCOffset.decode c!"000000T" = .err .invalidOffset := by decide +kernel

/-- TestUTCOffset 17 -/
example : UTCOffset.decode c!"-0000" = .err .invalidOffset := by decide +kernel

/-- TestUTCOffset 18 -/
example : UTCOffset.decode c!"-000000" = .err .invalidOffset := by decide +kernel

/-! ## tokeniser_test.go -/

/-- TestTokeniser 1 -/
example : parseLine c!"Name:Value\r\n" = .line ⟨c!"Name", [], c!"Value"⟩ [] := by decide +kernel

/-- TestTokeniser 2 -/
example : parseLine c!":Value\r\n" = .error .invalidContentLine := by decide +kernel

/-- TestTokeniser 3 -/
example : parseLine c!"Name+:Value\r\n" = .error .invalidContentLineName := by decide +kernel

/-- TestTokeniser 4 -/
example : parseLine c!"Name:!Value HERE09\tzø\r\n" = .line ⟨c!"Name", [], c!"!Value HERE09\tzø"⟩ [] := by decide +kernel

/-- TestTokeniser 5 -/
example : parseLine c!"Name:\nValue\r\n" = .error .invalidContentLineValue := by decide +kernel

/-- TestTokeniser 6 -/
example : parseLine c!"Name:Va\x00lue\r\n" = .error .invalidContentLineValue := by decide +kernel

/-- TestTokeniser 7 -/
example : parseLine c!"Name:Value\x7f\r\n" = .error .invalidContentLineValue := by decide +kernel

/-- TestTokeniser 8 -/
example : parseLine c!"Name;param=paramValue:Value\r\n" = .line ⟨c!"Name", [(c!"param", [⟨false, c!"paramValue"⟩])], c!"Value"⟩ [] := by decide +kernel

/-- TestTokeniser 9 -/
example : parseLine c!"Name;param=\"paramValue\":Value\r\n" = .line ⟨c!"Name", [(c!"param", [⟨true, c!"paramValue"⟩])], c!"Value"⟩ [] := by decide +kernel

/-- TestTokeniser 10 -/
example : parseLine c!"Name;param=\":;,\":Value\r\n" = .line ⟨c!"Name", [(c!"param", [⟨true, c!":;,"⟩])], c!"Value"⟩ [] := by decide +kernel

/-- TestTokeniser 11 -/
example : parseLine c!"Name;param=paramValue1,\"paramValue2\":Value\r\n" = .line ⟨c!"Name", [(c!"param", [⟨false, c!"paramValue1"⟩, ⟨true, c!"paramValue2"⟩])], c!"Value"⟩ [] := by decide +kernel

/-- TestTokeniser 12 -/
example : parseLine c!"Name;param1=\"ABC\";param2=DEF:Value\r\n" = .line ⟨c!"Name", [(c!"param1", [⟨true, c!"ABC"⟩]), (c!"param2", [⟨false, c!"DEF"⟩])], c!"Value"⟩ [] := by decide +kernel

/-! ## folder_test.go -/

/-- A writer that takes everything.  folder_test.go:11-40. -/
def buffer : Sink := fun _ => none

/-- `TestFolder` with the text in one `Write`, and with a `Write` for every rune.  folder_test.go:11-40. -/
def folds (input output : Str) : Bool :=
  decide ((({} : Folder).writes buffer [utf8 input]).out = utf8 output) &&
    decide ((({} : Folder).writes buffer (input.map fun c => utf8 [c])).out = utf8 output)

/-- TestFolder 1 -/
example : folds c!"A"
    c!"A" = true := by decide +kernel

/-- TestFolder 2 -/
example : folds c!"AB"
    c!"AB" = true := by decide +kernel

/-- TestFolder 3 -/
example : folds c!"ABCDEFGHIJKLMNOPQRSTUVWXYZABCDEFGHIJKLMNOPQRSTUVWXYZABCDEFGHIJKLMNOPQRSTUVWXYZ"
    c!"ABCDEFGHIJKLMNOPQRSTUVWXYZABCDEFGHIJKLMNOPQRSTUVWXYZABCDEFGHIJKLMNOPQRSTUVW\r\n XYZ" = true := by decide +kernel

/-- TestFolder 4 -/
example : folds c!"ABCDEFGHIJKLMNOPQRSTUVWXYZABCDEFGHIJKLMNOPQRSTUVWXYZABCDEFGHIJKLMNOPQRSTUVWXYZABCDEFGHIJKLMNOPQRSTUVWXYZABCDEFGHIJKLMNOPQRSTUVWXYZABCDEFGHIJKLMNOPQRSTUVWXYZ"
    c!"ABCDEFGHIJKLMNOPQRSTUVWXYZABCDEFGHIJKLMNOPQRSTUVWXYZABCDEFGHIJKLMNOPQRSTUVW\r\n XYZABCDEFGHIJKLMNOPQRSTUVWXYZABCDEFGHIJKLMNOPQRSTUVWXYZABCDEFGHIJKLMNOPQRS\r\n TUVWXYZ" = true := by decide +kernel

/-- TestFolder 5 -/
example : folds c!"ABCDEFGHIJKLMNOPQRSTUVWXYZABCDEFGHIJKLMNOPQRSTUVWXYZ\r\nABCDEFGHIJKLMNOPQRSTUVWXYZ"
    c!"ABCDEFGHIJKLMNOPQRSTUVWXYZABCDEFGHIJKLMNOPQRSTUVWXYZ\r\nABCDEFGHIJKLMNOPQRSTUVWXYZ" = true := by decide +kernel

/-- TestFolder 6 -/
example : folds c!"ABCDEFGHIJKLMNOPQRSTUVWXYZABCDEFGHIJKLMNOPQRSTUVWXYZABCDEFGHIJKLMNOPQRSTUV€XYZ"
    c!"ABCDEFGHIJKLMNOPQRSTUVWXYZABCDEFGHIJKLMNOPQRSTUVWXYZABCDEFGHIJKLMNOPQRSTUV\r\n €XYZ" = true := by decide +kernel

/-! ## unfolder_test.go -/

/-- `strings.NewReader`: as many octets as asked for or left, then the end.  unfolder_test.go:10-43. -/
def stringReader (s : Bytes) : Reader := piecesReader 0 [s]

/-- `TestUnfolder`: everything with large buffers (`io.Copy`), and octet by octet.  unfolder_test.go:10-43. -/
def unfolds (input output : Bytes) : Bool :=
  (match readAll (stringReader input) 200 [512, 512] {} [] with
   | .done (b, e, _) => decide (b = output ∧ e = some 0)
   | _ => false) &&
  (match readAll (stringReader input) 200 (List.replicate 200 1) {} [] with
   | .done (b, e, _) => decide (b = output ∧ e = some 0)
   | _ => false)

/-- TestUnfolder 1 -/
example : unfolds (utf8 c!"A")
    (utf8 c!"A") = true := by decide +kernel

/-- TestUnfolder 2 -/
example : unfolds (utf8 c!"A\nB")
    (utf8 c!"A\nB") = true := by decide +kernel

/-- TestUnfolder 3 -/
example : unfolds (utf8 c!"A\r\n B")
    (utf8 c!"AB") = true := by decide +kernel

/-- TestUnfolder 4 -/
example : unfolds (utf8 c!"ABCDEFGHIJKL\r\n MNOP\r\n QRSTUV\r\nWXY\r\n Z")
    (utf8 c!"ABCDEFGHIJKLMNOPQRSTUV\r\nWXYZ") = true := by decide +kernel

/-- TestUnfolder 5 -/
example : unfolds [0xe2, 13, 10, 32, 0x82, 13, 10, 32, 0xac] (utf8 c!"€") = true := by decide +kernel

/-- TestUnfolder 6 -/
example : unfolds (utf8 c!"BEGIN:VCALENDAR\r\nPRODID:TestDecode\r\nVERSION:2.0\r\nEND:VCALENDAR\r\n")
    (utf8 c!"BEGIN:VCALENDAR\r\nPRODID:TestDecode\r\nVERSION:2.0\r\nEND:VCALENDAR\r\n") = true := by decide +kernel

/-! ## decoder_test.go and encoder_test.go -/

/-- Input of `TestDecode` 2.  decoder_test.go:107. -/
def in2 : Str := List.flatten [
  c!"BEGIN:VCALENDAR\r\nPRODID:TestDecode\r\nVERSION:2.0\r\nEND:VCALENDAR\r\n"]

/-- Output of `TestEncode` 1.  encoder_test.go:28. -/
def out1 : Str := List.flatten [
  c!"BEGIN:VCALENDAR\r\nVERSION:2.0\r\nPRODID:TestDecode\r\nEND:VCALENDAR\r\n"]

/-- Input of `TestDecode` 3.  decoder_test.go:114-128. -/
def in3 : Str := List.flatten [
  c!"BEGIN:VCALENDAR\r\n",
  c!"PRODID:-//xyz Corp//NONSGML PDA Calendar Version 1.0//EN\r\n",
  c!"VERSION:2.0\r\n",
  c!"BEGIN:VEVENT\r\n",
  c!"DTSTAMP:19960704T120000Z\r\n",
  c!"UID:uid1@example.com\r\n",
  c!"ORGANIZER:mailto:jsmith@example.com\r\n",
  c!"DTSTART:19960918T143000Z\r\n",
  c!"DTEND:19960920T220000Z\r\n",
  c!"STATUS:CONFIRMED\r\n",
  c!"CATEGORIES:CONFERENCE\r\n",
  c!"SUMMARY:Networld+Interop Conference\r\n",
  c!"DESCRIPTION:Networld+Interop Conference\r\n  and Exhibit\\nAtlanta World Congress Center\\n\r\n Atlanta\\, Georgia\r\n",
  c!"END:VEVENT\r\n",
  c!"END:VCALENDAR\r\n"]

/-- Output of `TestEncode` 2.  encoder_test.go:73-88. -/
def out2 : Str := List.flatten [
  c!"BEGIN:VCALENDAR\r\n",
  c!"VERSION:2.0\r\n",
  c!"PRODID:-//xyz Corp//NONSGML PDA Calendar Version 1.0//EN\r\n",
  c!"BEGIN:VEVENT\r\n",
  c!"DTSTAMP:19960704T120000Z\r\n",
  c!"UID:uid1@example.com\r\n",
  c!"DTSTART:19960918T143000Z\r\n",
  c!"DESCRIPTION:Networld+Interop Conference and Exhibit\\nAtlanta World Congress\r\n",
  c!"  Center\\nAtlanta\\, Georgia\r\n",
  c!"ORGANIZER:mailto:jsmith@example.com\r\n",
  c!"STATUS:CONFIRMED\r\n",
  c!"SUMMARY:Networld+Interop Conference\r\n",
  c!"DTEND:19960920T220000Z\r\n",
  c!"CATEGORIES:CONFERENCE\r\n",
  c!"END:VEVENT\r\n",
  c!"END:VCALENDAR\r\n"]

/-- Input of `TestDecode` 4.  decoder_test.go:173-206. -/
def in4 : Str := List.flatten [
  c!"BEGIN:VCALENDAR\r\n",
  c!"PRODID:-//RDU Software//NONSGML HandCal//EN\r\n",
  c!"VERSION:2.0\r\n",
  c!"BEGIN:VTIMEZONE\r\n",
  c!"TZID:America/New_York\r\n",
  c!"BEGIN:STANDARD\r\n",
  c!"DTSTART:19981025T020000\r\n",
  c!"TZOFFSETFROM:-0400\r\n",
  c!"TZOFFSETTO:-0500\r\n",
  c!"TZNAME:EST\r\n",
  c!"END:STANDARD\r\n",
  c!"BEGIN:DAYLIGHT\r\n",
  c!"DTSTART:19990404T020000\r\n",
  c!"TZOFFSETFROM:-0500\r\n",
  c!"TZOFFSETTO:-0400\r\n",
  c!"TZNAME:EDT\r\n",
  c!"END:DAYLIGHT\r\n",
  c!"END:VTIMEZONE\r\n",
  c!"BEGIN:VEVENT\r\n",
  c!"DTSTAMP:19980309T231000Z\r\n",
  c!"UID:guid-1.example.com\r\n",
  c!"ORGANIZER:mailto:mrbig@example.com\r\n",
  c!"ATTENDEE;RSVP=TRUE;ROLE=REQ-PARTICIPANT;CUTYPE=GROUP:\r\n",
  c!" mailto:employee-A@example.com\r\n",
  c!"DESCRIPTION:Project XYZ Review Meeting\r\n",
  c!"CATEGORIES:MEETING\r\n",
  c!"CLASS:PUBLIC\r\n",
  c!"CREATED:19980309T130000Z\r\n",
  c!"SUMMARY:XYZ Project Review\r\n",
  c!"DTSTART;TZID=America/New_York:19980312T083000\r\n",
  c!"DTEND;TZID=America/New_York:19980312T093000\r\n",
  c!"LOCATION:1CP Conference Room 4350\r\n",
  c!"END:VEVENT\r\n",
  c!"END:VCALENDAR\r\n"]

/-- Output of `TestEncode` 3.  encoder_test.go:189-222. -/
def out3 : Str := List.flatten [
  c!"BEGIN:VCALENDAR\r\n",
  c!"VERSION:2.0\r\n",
  c!"PRODID:-//RDU Software//NONSGML HandCal//EN\r\n",
  c!"BEGIN:VEVENT\r\n",
  c!"DTSTAMP:19980309T231000Z\r\n",
  c!"UID:guid-1.example.com\r\n",
  c!"DTSTART;TZID=America/New_York:19980312T083000\r\n",
  c!"CLASS:PUBLIC\r\n",
  c!"CREATED:19980309T130000Z\r\n",
  c!"DESCRIPTION:Project XYZ Review Meeting\r\n",
  c!"LOCATION:1CP Conference Room 4350\r\n",
  c!"ORGANIZER:mailto:mrbig@example.com\r\n",
  c!"SUMMARY:XYZ Project Review\r\n",
  c!"DTEND;TZID=America/New_York:19980312T093000\r\n",
  c!"ATTENDEE;CUTYPE=GROUP;ROLE=REQ-PARTICIPANT;RSVP=TRUE:mailto:employee-A@exam\r\n",
  c!" ple.com\r\n",
  c!"CATEGORIES:MEETING\r\n",
  c!"END:VEVENT\r\n",
  c!"BEGIN:VTIMEZONE\r\n",
  c!"TZID:America/New_York\r\n",
  c!"BEGIN:STANDARD\r\n",
  c!"DTSTART:19981025T020000\r\n",
  c!"TZOFFSETTO:-0500\r\n",
  c!"TZOFFSETFROM:-0400\r\n",
  c!"TZNAME:EST\r\n",
  c!"END:STANDARD\r\n",
  c!"BEGIN:DAYLIGHT\r\n",
  c!"DTSTART:19990404T020000\r\n",
  c!"TZOFFSETTO:-0400\r\n",
  c!"TZOFFSETFROM:-0500\r\n",
  c!"TZNAME:EDT\r\n",
  c!"END:DAYLIGHT\r\n",
  c!"END:VTIMEZONE\r\n",
  c!"END:VCALENDAR\r\n"]

/-- Input of `TestDecode` 5.  decoder_test.go:307-328. -/
def in5 : Str := List.flatten [
  c!"BEGIN:VCALENDAR\r\n",
  c!"VERSION:2.0\r\n",
  c!"PRODID:-//ABC Corporation//NONSGML My Product//EN\r\n",
  c!"BEGIN:VTODO\r\n",
  c!"DTSTAMP:19980130T134500Z\r\n",
  c!"SEQUENCE:2\r\n",
  c!"UID:uid4@example.com\r\n",
  c!"ORGANIZER:mailto:unclesam@example.com\r\n",
  c!"ATTENDEE;PARTSTAT=ACCEPTED:mailto:jqpublic@example.com\r\n",
  c!"DUE:19980415T000000\r\n",
  c!"STATUS:NEEDS-ACTION\r\n",
  c!"SUMMARY:Submit Income Taxes\r\n",
  c!"BEGIN:VALARM\r\n",
  c!"ACTION:AUDIO\r\n",
  c!"TRIGGER;VALUE=DATE-TIME:19980403T120000Z\r\n",
  c!"ATTACH;FMTTYPE=audio/basic:http://example.com/pub/audio-\r\n",
  c!" files/ssbanner.aud\r\n",
  c!"REPEAT:4\r\n",
  c!"DURATION:PT1H\r\n",
  c!"END:VALARM\r\n",
  c!"END:VTODO\r\n",
  c!"END:VCALENDAR\r\n"]

/-- Output of `TestEncode` 4.  encoder_test.go:293-313. -/
def out4 : Str := List.flatten [
  c!"BEGIN:VCALENDAR\r\n",
  c!"VERSION:2.0\r\n",
  c!"PRODID:-//ABC Corporation//NONSGML My Product//EN\r\n",
  c!"BEGIN:VTODO\r\n",
  c!"DTSTAMP:19980130T134500Z\r\n",
  c!"UID:uid4@example.com\r\n",
  c!"ORGANIZER:mailto:unclesam@example.com\r\n",
  c!"SEQUENCE:2\r\n",
  c!"STATUS:NEEDS-ACTION\r\n",
  c!"SUMMARY:Submit Income Taxes\r\n",
  c!"DUE:19980415T000000\r\n",
  c!"ATTENDEE;PARTSTAT=ACCEPTED:mailto:jqpublic@example.com\r\n",
  c!"BEGIN:VALARM\r\n",
  c!"ACTION:AUDIO\r\n",
  c!"TRIGGER;VALUE=DATE-TIME:19980403T120000Z\r\n",
  c!"DURATION:PT1H\r\n",
  c!"REPEAT:4\r\n",
  c!"ATTACH;FMTTYPE=audio/basic:http://example.com/pub/audio-files/ssbanner.aud\r\n",
  c!"END:VALARM\r\n",
  c!"END:VTODO\r\n",
  c!"END:VCALENDAR\r\n"]

/-- Input of `TestDecode` 6.  decoder_test.go:399-420. -/
def in6 : Str := List.flatten [
  c!"BEGIN:VCALENDAR\r\n",
  c!"VERSION:2.0\r\n",
  c!"PRODID:-//ABC Corporation//NONSGML My Product//EN\r\n",
  c!"BEGIN:VJOURNAL\r\n",
  c!"DTSTAMP:19970324T120000Z\r\n",
  c!"UID:uid5@example.com\r\n",
  c!"ORGANIZER:mailto:jsmith@example.com\r\n",
  c!"STATUS:DRAFT\r\n",
  c!"CLASS:PUBLIC\r\n",
  c!"CATEGORIES:Project Report,XYZ,Weekly Meeting\r\n",
  c!"DESCRIPTION:Project xyz Review Meeting Minutes\\n\r\n",
  c!" Agenda\\n1. Review of project version 1.0 requirements.\\n2.\r\n",
  c!"  Definition of project processes.\\n3. Review of project schedule.\\n\r\n",
  c!" Participants: John Smith\\, Jane Doe\\, Jim Dandy\\n-It was\r\n",
  c!"  decided that the requirements need to be signed off by\r\n",
  c!"  product marketing.\\n-Project processes were accepted.\\n\r\n",
  c!" -Project schedule needs to account for scheduled holidays\r\n",
  c!"  and employee vacation time. Check with HR for specific\r\n",
  c!"  dates.\\n-New schedule will be distributed by Friday.\\n-\r\n",
  c!" Next weeks meeting is cancelled. No meeting until 3/23.\r\n",
  c!"END:VJOURNAL\r\n",
  c!"END:VCALENDAR\r\n"]

/-- Output of `TestEncode` 5.  encoder_test.go:362-381. -/
def out5 : Str := List.flatten [
  c!"BEGIN:VCALENDAR\r\n",
  c!"VERSION:2.0\r\n",
  c!"PRODID:-//ABC Corporation//NONSGML My Product//EN\r\n",
  c!"BEGIN:VJOURNAL\r\n",
  c!"DTSTAMP:19970324T120000Z\r\n",
  c!"UID:uid5@example.com\r\n",
  c!"CLASS:PUBLIC\r\n",
  c!"ORGANIZER:mailto:jsmith@example.com\r\n",
  c!"STATUS:DRAFT\r\n",
  c!"CATEGORIES:Project Report,XYZ,Weekly Meeting\r\n",
  c!"DESCRIPTION:Project xyz Review Meeting Minutes\\nAgenda\\n1. Review of projec\r\n",
  c!" t version 1.0 requirements.\\n2. Definition of project processes.\\n3. Revie\r\n",
  c!" w of project schedule.\\nParticipants: John Smith\\, Jane Doe\\, Jim Dandy\\n-\r\n",
  c!" It was decided that the requirements need to be signed off by product mark\r\n",
  c!" eting.\\n-Project processes were accepted.\\n-Project schedule needs to acco\r\n",
  c!" unt for scheduled holidays and employee vacation time. Check with HR for s\r\n",
  c!" pecific dates.\\n-New schedule will be distributed by Friday.\\n-Next weeks \r\n",
  c!" meeting is cancelled. No meeting until 3/23.\r\n",
  c!"END:VJOURNAL\r\n",
  c!"END:VCALENDAR\r\n"]

/-- Input of `TestDecode` 7.  decoder_test.go:469-483. -/
def in7 : Str := List.flatten [
  c!"BEGIN:VCALENDAR\r\n",
  c!"VERSION:2.0\r\n",
  c!"PRODID:-//RDU Software//NONSGML HandCal//EN\r\n",
  c!"BEGIN:VFREEBUSY\r\n",
  c!"DTSTAMP:19970324T120000Z\r\n",
  c!"UID:uid5@example.com\r\n",
  c!"ORGANIZER:mailto:jsmith@example.com\r\n",
  c!"DTSTART:19980313T141711Z\r\n",
  c!"DTEND:19980410T141711Z\r\n",
  c!"FREEBUSY:19980314T233000Z/19980315T003000Z\r\n",
  c!"FREEBUSY:19980316T153000Z/19980316T163000Z\r\n",
  c!"FREEBUSY:19980318T030000Z/19980318T040000Z\r\n",
  c!"URL:http://www.example.com/calendar/busytime/jsmith.ifb\r\n",
  c!"END:VFREEBUSY\r\n",
  c!"END:VCALENDAR\r\n"]

/-- Output of `TestEncode` 6.  encoder_test.go:453-468. -/
def out6 : Str := List.flatten [
  c!"BEGIN:VCALENDAR\r\n",
  c!"VERSION:2.0\r\n",
  c!"PRODID:-//RDU Software//NONSGML HandCal//EN\r\n",
  c!"BEGIN:VFREEBUSY\r\n",
  c!"DTSTAMP:19970324T120000Z\r\n",
  c!"UID:uid5@example.com\r\n",
  c!"DTSTART:19980313T141711Z\r\n",
  c!"DTEND:19980410T141711Z\r\n",
  c!"ORGANIZER:mailto:jsmith@example.com\r\n",
  c!"URL:http://www.example.com/calendar/busytime/jsmith.ifb\r\n",
  c!"FREEBUSY:19980314T233000Z/19980315T003000Z\r\n",
  c!"FREEBUSY:19980316T153000Z/19980316T163000Z\r\n",
  c!"FREEBUSY:19980318T030000Z/19980318T040000Z\r\n",
  c!"END:VFREEBUSY\r\n",
  c!"END:VCALENDAR\r\n"]

/-- A section from named properties.  For the struct literals of decoder_test.go and encoder_test.go. -/
def sect {κ σ : Type} (T : Tab κ) (ps : List (Str × PropVal)) (subs : List (List σ)) : Sect σ :=
  ⟨T.fields.map fun f => (ps.filter (·.1 = f.key)).map (·.2), subs⟩

/-- A property with a single value and no parameters (of the number given).  For the struct literals of decoder_test.go and encoder_test.go. -/
def val1 (n : Nat) (v : Val) : PropVal := .fields (List.replicate n none) [some v]

/-- decoder_test.go:129-170. -/
def organizer (s : Str) : Str × PropVal := (c!"ORGANIZER", val1 4 (.calAddress ⟨s⟩))

/-- The calendar of `TestDecode` 2 and `TestEncode` 1.  decoder_test.go:108-111, encoder_test.go:24-27. -/
def cal1 : Cal := sect tabCalendar [(c!"PRODID", val1 0 (.text c!"TestDecode")), (c!"VERSION", val1 0 (.text c!"2.0"))] [[], [], [], [], []]

/-- The calendar of `TestDecode` 3 and `TestEncode` 2.  decoder_test.go:129-170, encoder_test.go:31-72. -/
def cal2 : Cal := sect tabCalendar
  [(c!"PRODID", val1 0 (.text c!"-//xyz Corp//NONSGML PDA Calendar Version 1.0//EN")), (c!"VERSION", val1 0 (.text c!"2.0"))]
  [[sect tabEvent [
    (c!"DTSTAMP", val1 0 (.dateTime (goDate 1996 7 4 12 0 0 .utc))),
    (c!"UID", val1 0 (.text c!"uid1@example.com")),
    organizer c!"mailto:jsmith@example.com",
    (c!"DTSTART", .fields [] [some (.dateTime (goDate 1996 9 18 14 30 0 .utc)), none]),
    (c!"DTEND", .fields [] [some (.dateTime (goDate 1996 9 20 22 0 0 .utc)), none]),
    (c!"STATUS", .enum 1),
    (c!"CATEGORIES", val1 1 (.mtext [c!"CONFERENCE"])),
    (c!"SUMMARY", val1 2 (.text c!"Networld+Interop Conference")),
    (c!"DESCRIPTION", val1 2 (.text c!"Networld+Interop Conference and Exhibit\nAtlanta World Congress Center\nAtlanta, Georgia"))] [[]]],
   [], [], [], []]

/-- For the `Standard` and `Daylight` literals, decoder_test.go:207-304. -/
def change (start : GoTime) (from_ to : Int) (name : Str) (T : Tab Empty) : Sub := .leaf (sect T [
  (c!"DTSTART", .fields [] [some (.dateTime start), none]),
  (c!"TZOFFSETFROM", val1 0 (.utcOffset from_)),
  (c!"TZOFFSETTO", val1 0 (.utcOffset to)),
  (c!"TZNAME", val1 1 (.text name))] [])

/-- The calendar of `TestDecode` 4 and `TestEncode` 3.  decoder_test.go:207-304, encoder_test.go:91-188. -/
def cal3 : Cal := sect tabCalendar
  [(c!"PRODID", val1 0 (.text c!"-//RDU Software//NONSGML HandCal//EN")), (c!"VERSION", val1 0 (.text c!"2.0"))]
  [[sect tabEvent [
    (c!"DTSTAMP", val1 0 (.dateTime (goDate 1998 3 9 23 10 0 .utc))),
    (c!"UID", val1 0 (.text c!"guid-1.example.com")),
    organizer c!"mailto:mrbig@example.com",
    (c!"ATTENDEE", .fields [some (.enum 2), none, some (.enum 1), none, some (.bool true), none, none, none, none, none, none]
      [some (.calAddress ⟨c!"mailto:employee-A@example.com"⟩)]),
    (c!"DESCRIPTION", val1 2 (.text c!"Project XYZ Review Meeting")),
    (c!"CATEGORIES", val1 1 (.mtext [c!"MEETING"])),
    (c!"CLASS", .enum 0),
    (c!"CREATED", val1 0 (.dateTime (goDate 1998 3 9 13 0 0 .utc))),
    (c!"DTSTART", .fields [] [some (.dateTime (goDate 1998 3 12 8 30 0 ny)), none]),
    (c!"DTEND", .fields [] [some (.dateTime (goDate 1998 3 12 9 30 0 ny)), none]),
    (c!"LOCATION", val1 2 (.text c!"1CP Conference Room 4350")),
    (c!"SUMMARY", val1 2 (.text c!"XYZ Project Review"))] [[]]],
   [], [], [],
   [sect tabTimezone [(c!"TZID", val1 0 (.text newYork))]
     [[change (goDate 1998 10 25 2 0 0 .local) (-4 * 3600) (-5 * 3600) c!"EST" tabStandard],
      [change (goDate 1999 4 4 2 0 0 .local) (-5 * 3600) (-4 * 3600) c!"EDT" tabDaylight]]]]

/-- The calendar of `TestDecode` 5 and `TestEncode` 4.  decoder_test.go:329-396, encoder_test.go:225-292. -/
def cal4 : Cal := sect tabCalendar
  [(c!"PRODID", val1 0 (.text c!"-//ABC Corporation//NONSGML My Product//EN")), (c!"VERSION", val1 0 (.text c!"2.0"))]
  [[], [sect tabTodo [
    (c!"DTSTAMP", val1 0 (.dateTime (goDate 1998 1 30 13 45 0 .utc))),
    (c!"SEQUENCE", val1 0 (.integer 2)),
    (c!"UID", val1 0 (.text c!"uid4@example.com")),
    organizer c!"mailto:unclesam@example.com",
    (c!"ATTENDEE", .fields [none, none, none, some (.enum 2), none, none, none, none, none, none, none]
      [some (.calAddress ⟨c!"mailto:jqpublic@example.com"⟩)]),
    (c!"DUE", .fields [] [some (.dateTime (goDate 1998 4 15 0 0 0 .local)), none]),
    (c!"STATUS", .enum 3),
    (c!"SUMMARY", val1 2 (.text c!"Submit Income Taxes"))]
    [[.alarm (some (.audio, sect tabAlarmAudio [
      (c!"TRIGGER", .fields [] [none, some (.dateTime (goDate 1998 4 3 12 0 0 .utc))]),
      (c!"ATTACH", .fields [some (.str c!"audio/basic")] [some (.uri ⟨c!"http://example.com/pub/audio-files/ssbanner.aud"⟩), none]),
      (c!"REPEAT", val1 0 (.integer 4)),
      (c!"DURATION", val1 0 (.duration { hours := 1 }))] []))]]],
   [], [], []]

/-- The calendar of `TestDecode` 6 and `TestEncode` 5.  decoder_test.go:421-466, encoder_test.go:316-361. -/
def cal5 : Cal := sect tabCalendar
  [(c!"PRODID", val1 0 (.text c!"-//ABC Corporation//NONSGML My Product//EN")), (c!"VERSION", val1 0 (.text c!"2.0"))]
  [[], [], [sect tabJournal [
    (c!"DTSTAMP", val1 0 (.dateTime (goDate 1997 3 24 12 0 0 .utc))),
    (c!"UID", val1 0 (.text c!"uid5@example.com")),
    organizer c!"mailto:jsmith@example.com",
    (c!"STATUS", .enum 6),
    (c!"CLASS", .enum 0),
    (c!"CATEGORIES", val1 1 (.mtext [c!"Project Report", c!"XYZ", c!"Weekly Meeting"])),
    (c!"DESCRIPTION", val1 2 (.text (List.flatten [c!"Project xyz Review Meeting Minutes\n",
      c!"Agenda\n",
      c!"1. Review of project version 1.0 requirements.\n",
      c!"2. Definition of project processes.\n",
      c!"3. Review of project schedule.\n",
      c!"Participants: John Smith, Jane Doe, Jim Dandy\n",
      c!"-It was decided that the requirements need to be signed off by product marketing.\n",
      c!"-Project processes were accepted.\n",
      c!"-Project schedule needs to account for scheduled holidays and employee vacation time. Check with HR for specific dates.\n",
      c!"-New schedule will be distributed by Friday.\n",
      c!"-Next weeks meeting is cancelled. No meeting until 3/23."])))] []],
   [], []]

/-- For the `FreeBusy` literals, decoder_test.go:484-553. -/
def busy (a b : GoTime) : Str × PropVal := (c!"FREEBUSY", val1 1 (.period { start := a, stop := b, dur := {} }))

/-- The calendar of `TestDecode` 7 and `TestEncode` 6.  decoder_test.go:484-553, encoder_test.go:384-452. -/
def cal6 : Cal := sect tabCalendar
  [(c!"PRODID", val1 0 (.text c!"-//RDU Software//NONSGML HandCal//EN")), (c!"VERSION", val1 0 (.text c!"2.0"))]
  [[], [], [], [sect tabFreeBusy [
    (c!"DTSTAMP", val1 0 (.dateTime (goDate 1997 3 24 12 0 0 .utc))),
    (c!"UID", val1 0 (.text c!"uid5@example.com")),
    organizer c!"mailto:jsmith@example.com",
    (c!"DTSTART", .fields [] [some (.dateTime (goDate 1998 3 13 14 17 11 .utc)), none]),
    (c!"DTEND", .fields [] [some (.dateTime (goDate 1998 4 10 14 17 11 .utc)), none]),
    busy (goDate 1998 3 14 23 30 0 .utc) (goDate 1998 3 15 0 30 0 .utc),
    busy (goDate 1998 3 16 15 30 0 .utc) (goDate 1998 3 16 16 30 0 .utc),
    busy (goDate 1998 3 18 3 0 0 .utc) (goDate 1998 3 18 4 0 0 .utc),
    (c!"URL", val1 0 (.uri ⟨c!"http://www.example.com/calendar/busytime/jsmith.ifb"⟩))] []],
   []]

/-- `TestDecode`: the reader's text is unfolded and decoded.  decoder_test.go:556-563. -/
def decodes (doc : Str) (r : Res Cal) : Bool :=
  match decodeReader testEnv (stringReader (utf8 doc)) 3000 [3000, 3000] with
  | .done x => decide (x = r)
  | _ => false

/-- `TestEncode`: the calendar is written as the text, which decodes to it.  encoder_test.go:471-487. -/
def encodes (c : Cal) (doc : Str) : Bool :=
  (match encode testEnv buffer (fun s => [s]) c with
   | .done o => decide (o.err = none) && decide (o.f.out = utf8 doc)
   | _ => false) && decodes doc (.ok c)

/-- The document of `Example` (examples_test.go). -/
def exampleDoc : Str := List.flatten [
  c!"BEGIN:VCALENDAR\r\n",
  c!"VERSION:2.0\r\n",
  c!"PRODID:-//hacksw/handcal//NONSGML v1.0//EN\r\n",
  c!"BEGIN:VEVENT\r\n",
  c!"UID:uid1@example.com\r\n",
  c!"ORGANIZER;CN=John Doe:MAILTO:john.doe@example.com\r\n",
  c!"DTSTAMP:19970701T100000Z\r\n",
  c!"DTSTART:19970714T170000Z\r\n",
  c!"DTEND:19970715T040000Z\r\n",
  c!"SUMMARY:Bastille Day Party\r\n",
  c!"GEO:48.85299;2.36885\r\n",
  c!"END:VEVENT\r\n",
  c!"END:VCALENDAR"]

/-- TestDecode 1 -/
example : decodes c!"" (.err .unexpectedEOF) = true := by decide +kernel

/-- TestDecode 2 -/
example : decodes in2 (.ok cal1) = true := by decide +kernel

/-- TestDecode 3 -/
example : decodes in3 (.ok cal2) = true := by decide +kernel

/-- TestDecode 4 -/
example : decodes in4 (.ok cal3) = true := by decide +kernel

/-- TestDecode 5 -/
example : decodes in5 (.ok cal4) = true := by decide +kernel

/-- TestDecode 6 -/
example : decodes in6 (.ok cal5) = true := by decide +kernel

/-- TestDecode 7 -/
example : decodes in7 (.ok cal6) = true := by decide +kernel

/-- TestEncode 1 -/
example : encodes cal1 out1 = true := by decide +kernel

/-- TestEncode 2 -/
example : encodes cal2 out2 = true := by decide +kernel

/-- TestEncode 3 -/
example : encodes cal3 out3 = true := by decide +kernel

/-- TestEncode 4 -/
example : encodes cal4 out4 = true := by decide +kernel

/-- TestEncode 5 -/
example : encodes cal5 out5 = true := by decide +kernel

/-- TestEncode 6 -/
example : encodes cal6 out6 = true := by decide +kernel

/-- The start and the summary of the first event, as printed by `Example`.  examples_test.go:25-32. -/
def startAndSummary (c : Cal) : Option (PropVal × PropVal) := do
  let e ← (← c.subs[0]?)[0]?
  let i ← fieldIdx c!"DTSTART" tabEvent.fields
  let j ← fieldIdx c!"SUMMARY" tabEvent.fields
  return (← (← e.fields[i]?)[0]?, ← (← e.fields[j]?)[0]?)

/-- Example -/
example : (match decodeDoc testEnv exampleDoc with | .ok c => startAndSummary c | _ => none) =
    some (.fields [] [some (.dateTime (goDate 1997 7 14 17 0 0 .utc)), none], val1 2 (.text c!"Bastille Day Party")) := by decide +kernel


end Ics.RepoTests
