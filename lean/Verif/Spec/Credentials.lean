import Verif.Spec.Form

/-!
# Credentials

What libcurl makes of the value of `CURLOPT_USERPWD` (independent of the code): the user name ends at
the first colon, the rest is the password.
-/

namespace Broker.Spec

/-- User name and password. -/
def login (a : String) : String × String :=
  (String.ofList (a.toList.takeWhile (· ≠ ':')),
   String.ofList ((a.toList.dropWhile (· ≠ ':')).drop 1))

end Broker.Spec
