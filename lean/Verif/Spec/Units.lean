import Verif.Model.Units
/-!
# Which spellings stand for which unit, written as a grammar (prefix × base word), independently of the table in the code
-/
namespace Commsdsl.Spec
open Commsdsl Commsdsl.Text

/-- second-based times with a short and a long metric prefix -/
def timeWords (short long : String) : List String :=
  [short ++ "s"] ++ ["sec", "secs", "second", "seconds"].map (long ++ ·)
/-- British and American spellings, singular and plural -/
def metreWords (long : String) : List String := ["meter", "metre", "meters", "metres"].map (long ++ ·)
/-- lengths -/
def lengthWords (short long : String) : List String := (short ++ "m") :: metreWords long
/-- speeds in metres per second -/
def speedWords (short long : String) : List String :=
  [short ++ "m/s", short ++ "mps"] ++ (metreWords long).map (· ++ "/second")
/-- frequencies -/
def freqWords (short long : String) : List String := [short ++ "hz", long ++ "hertz"]
/-- currents -/
def ampWords (short long : String) : List String :=
  (short ++ "a") :: ["amp", "amps", "ampere", "amperes"].map (long ++ ·)
/-- voltages -/
def voltWords (short long : String) : List String := (short ++ "v") :: ["volt", "volts"].map (long ++ ·)
/-- sizes -/
def byteWords (short long : String) : List String := (short ++ "b") :: ["byte", "bytes"].map (long ++ ·)

/-- All spellings of a unit. -/
def spellings : Units → List String
  | .unknown => [""]
  | .nanoseconds => timeWords "n" "nano"
  | .microseconds => timeWords "u" "micro"
  | .milliseconds => timeWords "m" "milli"
  | .seconds => timeWords "" ""
  | .minutes => ["min", "mins", "minute", "minutes"]
  | .hours => ["h", "hour", "hours"]
  | .days => ["d", "day", "days"]
  | .weeks => ["w", "week", "weeks"]
  | .nanometers => lengthWords "n" "nano"
  | .micrometers => lengthWords "u" "micro"
  | .millimeters => lengthWords "m" "milli"
  | .centimeters => lengthWords "c" "centi"
  | .meters => lengthWords "" ""
  | .kilometers => lengthWords "k" "kilo"
  | .nanometersPerSecond => speedWords "n" "nano"
  | .micrometersPerSecond => speedWords "u" "micro"
  | .millimetersPerSecond => speedWords "m" "milli"
  | .centimetersPerSecond => speedWords "c" "centi"
  | .metersPerSecond => speedWords "" ""
  | .kilometersPerSecond => "kps" :: speedWords "k" "kilo"
  | .kilometersPerHour => ["km/h", "kmph", "kph"] ++ (metreWords "kilo").map (· ++ "/hour")
  | .hertz => freqWords "" ""
  | .kiloHertz => freqWords "k" "kilo"
  | .megaHertz => freqWords "m" "mega"
  | .gigaHertz => freqWords "g" "giga"
  | .degrees => ["deg", "degree", "degrees"]
  | .radians => ["rad", "radian", "radians"]
  | .nanoamps => ampWords "n" "nano"
  | .microamps => ampWords "u" "micro"
  | .milliamps => ampWords "m" "milli"
  | .amps => ampWords "" ""
  | .kiloamps => ampWords "k" "kilo"
  | .nanovolts => voltWords "n" "nano"
  | .microvolts => voltWords "u" "micro"
  | .millivolts => voltWords "m" "milli"
  | .volts => voltWords "" ""
  | .kilovolts => voltWords "k" "kilo"
  | .bytes => byteWords "" ""
  | .kilobytes => byteWords "k" "kilo"
  | .megabytes => byteWords "m" "mega"
  | .gigabytes => byteWords "g" "giga"
  | .terabytes => byteWords "t" "tera"

end Commsdsl.Spec
