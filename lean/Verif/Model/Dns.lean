import Mathlib.Computability.RegularExpressions
import Verif.Model.Node
/-
Model of dynaml/dns.go: syntax of DNS names, given by regular expressions. Go's `regexp` matching `^…$` (without flags) is membership of
the whole text in the language of the expression; the derivative matcher of Mathlib decides it.
-/
namespace Spiff
open RegularExpression

/-- a character class `[…]` -/
def reChars : List Char → RegularExpression Char
  | [] => 0
  | c :: r => char c + reChars r

/-- `(…)?` -/
def reOpt (r : RegularExpression Char) : RegularExpression Char := 1 + r

def lowers : List Char := "abcdefghijklmnopqrstuvwxyz".toList
def digits : List Char := "0123456789".toList

/-- dynaml/dns.go:53 `dns1123LabelFmt`: `[a-z0-9]([-a-z0-9]*[a-z0-9])?` -/
def dns1123Label : RegularExpression Char :=
  reChars (lowers ++ digits) * reOpt ((reChars ('-' :: lowers ++ digits)).star * reChars (lowers ++ digits))

/-- dynaml/dns.go:72 `dns1123SubdomainFmt`: label`(\.`label`)*` -/
def dns1123Subdomain : RegularExpression Char := dns1123Label * (char '.' * dns1123Label).star

/-- dynaml/dns.go:91 `dns1035LabelFmt`: `[a-z]([-a-z0-9]*[a-z0-9])?` -/
def dns1035LabelRe : RegularExpression Char :=
  reChars lowers * reOpt ((reChars ('-' :: lowers ++ digits)).star * reChars (lowers ++ digits))

/-- dynaml/dns.go:112 `wildcardDNS1123SubdomainFmt`: `\*\.`subdomain -/
def wildcardDns1123Subdomain : RegularExpression Char := char '*' * char '.' * dns1123Subdomain

/-- Go's `len` of a string: the number of bytes -/
def byteLen (s : List Char) : Nat := (s.map Char.utf8Size).sum

/-- dynaml/dns.go:61-70 `IsDNS1123Label`; `true`: no errors -/
def isDns1123Label (s : List Char) : Bool := !decide (byteLen s > 63) && dns1123Label.rmatch s

/-- dynaml/dns.go:80-89 `IsDNS1123Subdomain` -/
def isDns1123Subdomain (s : List Char) : Bool := !decide (byteLen s > 253) && dns1123Subdomain.rmatch s

/-- dynaml/dns.go:99-108 `IsDNS1035Label` (not used by spiff itself) -/
def isDns1035Label (s : List Char) : Bool := !decide (byteLen s > 63) && dns1035LabelRe.rmatch s

/-- dynaml/dns.go:117-128 `IsWildcardDNS1123Subdomain` -/
def isWildcardDns1123Subdomain (s : List Char) : Bool := !decide (byteLen s > 253) && wildcardDns1123Subdomain.rmatch s

end Spiff
