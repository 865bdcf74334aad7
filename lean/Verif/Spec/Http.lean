import Verif.Spec.Bytes
import Verif.Model.HttpHelpers
/-!
# Specifications for status codes and dates (C42, C43)
-/
namespace Pillow.Spec
open Pillow

/-- The status codes of RFC 2616 §6.1.1 (402 is "reserved for future use" there and 306 unused). -/
def rfcCodes : List Int :=
  [100, 101, 200, 201, 202, 203, 204, 205, 206, 300, 301, 302, 303, 304, 305, 307,
   400, 401, 403, 404, 405, 406, 407, 408, 409, 410, 411, 412, 413, 414, 415, 416, 417,
   500, 501, 502, 503, 504, 505]

/-- Two decimal digits. -/
def two (n : Nat) : Bytes := [UInt8.ofNat (48 + n / 10 % 10), UInt8.ofNat (48 + n % 10)]
/-- Four decimal digits. -/
def four (n : Nat) : Bytes :=
  [UInt8.ofNat (48 + n / 1000 % 10), UInt8.ofNat (48 + n / 100 % 10),
   UInt8.ofNat (48 + n / 10 % 10), UInt8.ofNat (48 + n % 10)]

def weekday (n : Nat) : Bytes := ("MonTueWedThuFriSatSun".toUTF8.toList.drop (3 * (n - 1))).take 3
def monthName (n : Nat) : Bytes := ("JanFebMarAprMayJunJulAugSepOctNovDec".toUTF8.toList.drop (3 * (n - 1))).take 3

/-- A date-time as Qt hands it out for a valid UTC `QDateTime` whose year has four digits. -/
structure ValidDate (d : DateTime) : Prop where
  wd : 1 ≤ d.dayOfWeek ∧ d.dayOfWeek ≤ 7
  day : 1 ≤ d.day ∧ d.day ≤ 31
  month : 1 ≤ d.month ∧ d.month ≤ 12
  year : 1000 ≤ d.year ∧ d.year ≤ 9999
  hour : d.hour ≤ 23
  minute : d.minute ≤ 59
  second : d.second ≤ 59

/-- RFC 1123 date: `Www, DD Mon YYYY HH:MM:SS GMT`. -/
def rfc1123 (d : DateTime) : Bytes :=
  weekday d.dayOfWeek ++ b!", " ++ two d.day ++ b!" " ++ monthName d.month ++ b!" " ++ four d.year.toNat
    ++ b!" " ++ two d.hour ++ b!":" ++ two d.minute ++ b!":" ++ two d.second ++ b!" GMT"

end Pillow.Spec
