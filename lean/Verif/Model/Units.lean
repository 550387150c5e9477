import Verif.Model.Text
/-!
# Units text (`lib/src/parse/parse_common.cpp:1072-1280`) and string values (`lib/src/parse/ParseProtocolImpl.cpp:284-319`)
-/
namespace Commsdsl.Text
open Commsdsl

/-- `ParseUnits` (lib/include/commsdsl/parse/ParseUnits.h:25-86), without the `NumOfValues` marker. -/
inductive Units where
  | unknown
  | nanoseconds
  | microseconds
  | milliseconds
  | seconds
  | minutes
  | hours
  | days
  | weeks
  | nanometers
  | micrometers
  | millimeters
  | centimeters
  | meters
  | kilometers
  | nanometersPerSecond
  | micrometersPerSecond
  | millimetersPerSecond
  | centimetersPerSecond
  | metersPerSecond
  | kilometersPerSecond
  | kilometersPerHour
  | hertz
  | kiloHertz
  | megaHertz
  | gigaHertz
  | degrees
  | radians
  | nanoamps
  | microamps
  | milliamps
  | amps
  | kiloamps
  | nanovolts
  | microvolts
  | millivolts
  | volts
  | kilovolts
  | bytes
  | kilobytes
  | megabytes
  | gigabytes
  | terabytes
  deriving DecidableEq, Repr

/-- All enumerators, in order. lib/include/commsdsl/parse/ParseUnits.h. -/
def allUnits : List Units := [.unknown, .nanoseconds, .microseconds, .milliseconds, .seconds, .minutes, .hours, .days, .weeks, .nanometers, .micrometers, .millimeters, .centimeters, .meters, .kilometers, .nanometersPerSecond, .micrometersPerSecond, .millimetersPerSecond, .centimetersPerSecond, .metersPerSecond, .kilometersPerSecond, .kilometersPerHour, .hertz, .kiloHertz, .megaHertz, .gigaHertz, .degrees, .radians, .nanoamps, .microamps, .milliamps, .amps, .kiloamps, .nanovolts, .microvolts, .millivolts, .volts, .kilovolts, .bytes, .kilobytes, .megabytes, .gigabytes, .terabytes]

/-- `Map` of `parseStrToUnits`, parse_common.cpp:1072-1280, in source order. -/
def unitsTable : List (String × Units) := [
  ("", .unknown),
  ("ns", .nanoseconds),
  ("nanosec", .nanoseconds),
  ("nanosecs", .nanoseconds),
  ("nanosecond", .nanoseconds),
  ("nanoseconds", .nanoseconds),
  ("us", .microseconds),
  ("microsec", .microseconds),
  ("microsecs", .microseconds),
  ("microsecond", .microseconds),
  ("microseconds", .microseconds),
  ("ms", .milliseconds),
  ("millisec", .milliseconds),
  ("millisecs", .milliseconds),
  ("millisecond", .milliseconds),
  ("milliseconds", .milliseconds),
  ("s", .seconds),
  ("sec", .seconds),
  ("secs", .seconds),
  ("second", .seconds),
  ("seconds", .seconds),
  ("min", .minutes),
  ("mins", .minutes),
  ("minute", .minutes),
  ("minutes", .minutes),
  ("h", .hours),
  ("hour", .hours),
  ("hours", .hours),
  ("d", .days),
  ("day", .days),
  ("days", .days),
  ("w", .weeks),
  ("week", .weeks),
  ("weeks", .weeks),
  ("nm", .nanometers),
  ("nanometer", .nanometers),
  ("nanometre", .nanometers),
  ("nanometres", .nanometers),
  ("nanometers", .nanometers),
  ("um", .micrometers),
  ("micrometer", .micrometers),
  ("micrometre", .micrometers),
  ("micrometres", .micrometers),
  ("micrometers", .micrometers),
  ("mm", .millimeters),
  ("millimeter", .millimeters),
  ("millimetre", .millimeters),
  ("millimetres", .millimeters),
  ("millimeters", .millimeters),
  ("cm", .centimeters),
  ("centimeter", .centimeters),
  ("centimetre", .centimeters),
  ("centimetres", .centimeters),
  ("centimeters", .centimeters),
  ("m", .meters),
  ("meter", .meters),
  ("metre", .meters),
  ("metres", .meters),
  ("meters", .meters),
  ("km", .kilometers),
  ("kilometer", .kilometers),
  ("kilometre", .kilometers),
  ("kilometres", .kilometers),
  ("kilometers", .kilometers),
  ("nm/s", .nanometersPerSecond),
  ("nmps", .nanometersPerSecond),
  ("nanometer/second", .nanometersPerSecond),
  ("nanometre/second", .nanometersPerSecond),
  ("nanometers/second", .nanometersPerSecond),
  ("nanometres/second", .nanometersPerSecond),
  ("um/s", .micrometersPerSecond),
  ("umps", .micrometersPerSecond),
  ("micrometers/second", .micrometersPerSecond),
  ("micrometres/second", .micrometersPerSecond),
  ("micrometer/second", .micrometersPerSecond),
  ("micrometre/second", .micrometersPerSecond),
  ("mm/s", .millimetersPerSecond),
  ("mmps", .millimetersPerSecond),
  ("millimeter/second", .millimetersPerSecond),
  ("millimetre/second", .millimetersPerSecond),
  ("millimeters/second", .millimetersPerSecond),
  ("millimetres/second", .millimetersPerSecond),
  ("cm/s", .centimetersPerSecond),
  ("cmps", .centimetersPerSecond),
  ("centimeter/second", .centimetersPerSecond),
  ("centimetre/second", .centimetersPerSecond),
  ("centimeters/second", .centimetersPerSecond),
  ("centimetres/second", .centimetersPerSecond),
  ("m/s", .metersPerSecond),
  ("mps", .metersPerSecond),
  ("meter/second", .metersPerSecond),
  ("metre/second", .metersPerSecond),
  ("meters/second", .metersPerSecond),
  ("metres/second", .metersPerSecond),
  ("km/s", .kilometersPerSecond),
  ("kmps", .kilometersPerSecond),
  ("kps", .kilometersPerSecond),
  ("kilometer/second", .kilometersPerSecond),
  ("kilometre/second", .kilometersPerSecond),
  ("kilometers/second", .kilometersPerSecond),
  ("kilometres/second", .kilometersPerSecond),
  ("km/h", .kilometersPerHour),
  ("kmph", .kilometersPerHour),
  ("kph", .kilometersPerHour),
  ("kilometer/hour", .kilometersPerHour),
  ("kilometre/hour", .kilometersPerHour),
  ("kilometers/hour", .kilometersPerHour),
  ("kilometres/hour", .kilometersPerHour),
  ("hz", .hertz),
  ("hertz", .hertz),
  ("khz", .kiloHertz),
  ("kilohertz", .kiloHertz),
  ("mhz", .megaHertz),
  ("megahertz", .megaHertz),
  ("ghz", .gigaHertz),
  ("gigahertz", .gigaHertz),
  ("deg", .degrees),
  ("degree", .degrees),
  ("degrees", .degrees),
  ("rad", .radians),
  ("radian", .radians),
  ("radians", .radians),
  ("na", .nanoamps),
  ("nanoamp", .nanoamps),
  ("nanoamps", .nanoamps),
  ("nanoampere", .nanoamps),
  ("nanoamperes", .nanoamps),
  ("ua", .microamps),
  ("microamp", .microamps),
  ("microamps", .microamps),
  ("microampere", .microamps),
  ("microamperes", .microamps),
  ("ma", .milliamps),
  ("milliamp", .milliamps),
  ("milliamps", .milliamps),
  ("milliampere", .milliamps),
  ("milliamperes", .milliamps),
  ("a", .amps),
  ("amp", .amps),
  ("amps", .amps),
  ("ampere", .amps),
  ("amperes", .amps),
  ("ka", .kiloamps),
  ("kiloamp", .kiloamps),
  ("kiloamps", .kiloamps),
  ("kiloampere", .kiloamps),
  ("kiloamperes", .kiloamps),
  ("nv", .nanovolts),
  ("nanovolt", .nanovolts),
  ("nanovolts", .nanovolts),
  ("uv", .microvolts),
  ("microvolt", .microvolts),
  ("microvolts", .microvolts),
  ("mv", .millivolts),
  ("millivolt", .millivolts),
  ("millivolts", .millivolts),
  ("v", .volts),
  ("volt", .volts),
  ("volts", .volts),
  ("kv", .kilovolts),
  ("kilovolt", .kilovolts),
  ("kilovolts", .kilovolts),
  ("b", .bytes),
  ("byte", .bytes),
  ("bytes", .bytes),
  ("kb", .kilobytes),
  ("kilobyte", .kilobytes),
  ("kilobytes", .kilobytes),
  ("mb", .megabytes),
  ("megabyte", .megabytes),
  ("megabytes", .megabytes),
  ("gb", .gigabytes),
  ("gigabyte", .gigabytes),
  ("gigabytes", .gigabytes),
  ("tb", .terabytes),
  ("terabyte", .terabytes),
  ("terabytes", .terabytes)]

/-- `parseToLowerCopy` then `remove_if` of blanks and tabs, parse_common.cpp:1262-1270. -/
def unitsKey (s : Str) : Str := (toLower s).filter fun c => !(c == ' ' || c == '\t')

/-- `parseStrToUnits`, parse_common.cpp:1072-1280; `none` stands for `*ok == false`. The lookup in a `std::map` built from an initialiser list
    finds the first pair with that key. -/
def strToUnits (s : Str) : Option Units :=
  (unitsTable.find? fun p => p.1.toList == unitsKey s).map Prod.snd

/-! ## String values -/

/-- `std::string::find_first_of(ch)`. Helper of `strToStringValue`, ParseProtocolImpl.cpp:284-319. -/
def findFirstOf (c : Char) (s : Str) : Option Nat := s.findIdx? (· == c)

/-- `ParseProtocolImpl::parseStrToStringValue`, ParseProtocolImpl.cpp:284-319.
    `refSupported` is `parseIsFieldValueReferenceSupported()`, `resolve` is `parseStrToString(ref, true, val)`. `none` stands for `false`. -/
def strToStringValue (refSupported : Bool) (resolve : Str → Option Str) (s : Str) : Option Str :=
  if s.isEmpty || !refSupported then some s
  else if s.head? = some '^' then resolve (s.drop 1)
  else match findFirstOf '^' s with
  | none => some s
  | some prefixPos =>
    if !((s.take prefixPos).all fun c => c == '\\') then some s
    else some (s.drop 1)

end Commsdsl.Text
