import Verif.Model.Validate
import Verif.Model.GoText
/-!
# The text of error messages

`Says e t`: `t` can be what `Error()` of the error `e` gives. Names of kinds and types, and texts of the standard library, are left open, so an
error may have several texts.
-/
namespace Jsval

/-- The text of the errors that consist of fixed words, in the order of `Err`. -/
def Err.fixedText : Err → Option GoStr
  | .notNull => some (b! "value is not null")                                                        -- basic.go:55
  | .notNoChild => some (b! "'not' constraint does not have a child constraint")                     -- basic.go:83
  | .notFailed => some (b! "'not' validation failed")                                                -- basic.go:87
  | .fewItems => some (b! "fewer items than minItems")                                               -- array.go:49
  | .manyItems => some (b! "more items than maxItems")                                               -- array.go:53
  | .dupItem => some (b! "duplicate element found")                                                  -- array.go:65
  | .addlItems => some (b! "additional elements found in array")                                     -- array.go:104
  | .notBool => some (b! "value is not a boolean")                                                   -- bool.go:26
  | .anyNone => some (b! "could not validate against any of the constraints")                        -- combinations.go:59
  | .oneOfNone => some (b! "none of the constraints passed")                                         -- combinations.go:130
  | .oneOfMany => some (b! "more than 1 of the constraints passed")                                  -- combinations.go:132
  | .notInEnum => some (b! "value is not in enumeration")                                            -- enum.go:31
  | .notFloat => some (b! "value is not a float")                                                    -- number.go:86
  | .belowMinExcl => some (b! "numeric value is less than the minimum (exclusive minimum)")          -- number.go:97
  | .belowMin => some (b! "numeric value is less than the minimum")                                  -- number.go:101
  | .aboveMaxExcl => some (b! "numeric value is greater than maximum (exclusive maximum)")           -- number.go:112
  | .aboveMax => some (b! "numeric value is greater than maximum")                                   -- number.go:116
  | .notMultiple => some (b! "numeric value is fails multipleOf validation")                         -- number.go:128
  | .notIntegral => some (b! "value is not an int/uint")                                             -- number.go:223
  | .notNumeric => some (b! "value is not numeric")                                                  -- number.go:227
  | .badDatetime => some (b! "invalid datetime")                                                     -- string.go:76
  | .badHostname => some (b! "invalid hostname")                                                     -- string.go:84
  | .badIPv4 => some (b! "invalid IPv4 address")                                                     -- string.go:92, 96
  | .badIPv6 => some (b! "invalid IPv6 address")                                                     -- string.go:104, 108
  | .badURI => some (b! "invalid URI")                                                               -- string.go:112
  | .mapKeys => some (b! "panic: can only handle maps with string keys")                             -- object.go:176
  | .fewProps => some (b! "fewer properties than minProperties")                                     -- object.go:349
  | .manyProps => some (b! "more properties than maxProperties")                                     -- object.go:352
  | .addlNotAllowed => some (b! "additional properties are not allowed")                             -- object.go:466
  | _ => none

/-- What `Error()` can give for an error. `typ` and `kind` are what `reflect` calls types and kinds. -/
inductive Err.Says : Err → GoStr → Prop where
  | fixed {e t} : e.fixedText = some t → Says e t
  /-- array.go:43 -/
  | notSlice (typ : GoStr) : Says .notSlice (b! "value must be a slice (was: " ++ typ ++ b! ")")
  /-- string.go:50 -/
  | notString (kind : GoStr) : Says .notString (b! "value is not a string (Kind: " ++ kind ++ b! ")")
  /-- string.go:60; `strconv.Itoa` -/
  | tooLong (n : Int) : Says (.tooLong n) (b! "string longer than maxLength " ++ intDec n)
  /-- string.go:69 -/
  | tooShort (n : Int) : Says (.tooShort n) (b! "string shorter than minLength " ++ intDec n)
  /-- string.go:80; `why` is the error of `mail.ParseAddress` -/
  | badEmail (why : GoStr) : Says .badEmail (b! "invalid email address: " ++ why)
  /-- string.go:121 -/
  | badRegexp (s rx : GoStr) : Says (.badRegexp s rx) (b! "string '" ++ s ++ b! "' does not match regular expression '" ++ rx ++ b! "'")
  /-- object.go:195 -/
  | noPropNames (kind : GoStr) : Says .noPropNames (b! "cannot get property names from this value (Kind: " ++ kind ++ b! ")")
  /-- object.go:406 -/
  | required (p : GoStr) : Says (.required p) (b! "object property '" ++ p ++ b! "' is required")
  /-- object.go:419 -/
  | setDefault (p : GoStr) {e t} : Says e t → Says (.setDefault p e) (b! "failed to set default value for property '" ++ p ++ b! "': " ++ t)
  /-- object.go:433, 458 -/
  | prop (p : GoStr) {e t} : Says e t → Says (.prop p e) (b! "object property '" ++ p ++ b! "' validation failed: " ++ t)
  /-- object.go:472 -/
  | addlProp (p : GoStr) {e t} : Says e t → Says (.addlProp p e) (b! "object property for '" ++ p ++ b! "' validation failed: " ++ t)
  /-- object.go:484 -/
  | depMissing (p : GoStr) : Says (.depMissing p) (b! "required dependency '" ++ p ++ b! "' is mising")
  /-- reference.go:52 -/
  | refNotFound (n : GoStr) : Says (.refNotFound n) (b! "reference '" ++ n ++ b! "' not found")
  /-- object.go:257 -/
  | noField (p : GoStr) : Says (.noField p) (b! "setProp: could not find field '" ++ p ++ b! "'")
  /-- object.go:287 -/
  | setPropKind (kind : GoStr) : Says .setPropKind (b! "setProp: don't know what to do with '" ++ kind ++ b! "'")
  /-- maybe.go:14-28 -/
  | badMaybe (typ : GoStr) : Says .badMaybe (b! "invalid Maybe value: (" ++ typ ++ b! ")")
  /-- maybe.go:213-216; `Error()` of `*time.ParseError` starts with these words -/
  | badTime (why : GoStr) : Says .badTime (b! "parsing time " ++ why)

/-- What `Error()` can give for an error of `JSVal.Validate` (jsval.go:22-28): `errors.Wrapf` puts its text, a colon and a space before that of the
cause. `%p` is an address in hexadecimal notation. -/
inductive WhoSays : Who → Err → GoStr → Prop where
  | byName {n e t} : e.Says t → WhoSays (.byName n) e (b! "validator " ++ n ++ b! " failed: " ++ t)
  | byPointer {a : GoStr} {e t} : (∀ x ∈ a, x ∈ b! "0123456789abcdef") → e.Says t →
      WhoSays .byPointer e (b! "validator 0x" ++ a ++ b! " failed: " ++ t)

end Jsval
