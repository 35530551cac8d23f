import Verif.Model.Handler

/-!
# The status notifier handler and the HTTP helpers

src/handlers/status_notifier_handler.cpp and src/helpers/curl.cpp.  The HTTP transport (libcurl, the
network, the frontend) is outside: an attempt to post has an outcome supplied from outside.
-/

namespace Broker

/-- `notifier_config` (src/config/notifier_config.h:9-21) as far as the handler uses it. -/
structure NotifierConfig where
  address : String
  port : Nat
  username : String
  password : String
  deriving DecidableEq, Repr

/-- What `status_notifier_handler::on_request` collects from the frames. -/
structure Notification where
  type : String
  id : String
  /-- `helpers::curl_params`, a `std::map` -/
  params : MMap String
  deriving DecidableEq, Repr

/-- The loop over the frames (src/handlers/status_notifier_handler.cpp:27-40).  With an odd number
    of frames the value of the last key is read past the end of the vector. -/
def collectParams : List String → Notification → Except UB Notification
  | [], n => .ok n
  | [_], _ => .error .pastEnd
  | key :: value :: t, n =>
    collectParams t
      (if key = "type" then { n with type := value }
       else if key = "id" then { n with id := value }
       else { n with params := mapAssign key value n.params })

/-- src/handlers/status_notifier_handler.cpp:21-40. -/
def parseNotification (data : List String) : Except UB Notification :=
  collectParams data ⟨"", "", []⟩

/-- The address of the request (src/handlers/status_notifier_handler.cpp:42-51). -/
def notificationUrl (cfg : NotifierConfig) (n : Notification) : String :=
  cfg.address ++ (if n.type ≠ "" then "/" ++ n.type else "") ++
    (if n.id ≠ "" then "/" ++ n.id else "")

/-- `helpers::get_http_query` (src/helpers/curl.cpp:10-23). -/
def httpQuery (params : MMap String) : String :=
  params.foldl (fun result par =>
    (if result.length > 0 then result ++ "&" else result) ++ (par.1 ++ "=" ++ par.2)) ""

/-- `c_str()` of a string as a C string: the bytes before the first NUL.
    `CURLOPT_URL` and `CURLOPT_POSTFIELDS` (without `CURLOPT_POSTFIELDSIZE`) take C strings
    (src/helpers/curl.cpp:115, 121). -/
def cString (s : String) : String := String.ofList (s.toList.takeWhile (· ≠ '\x00'))

/-- An HTTP request as made by `curl_post` (src/helpers/curl.cpp:100-159): the address, the port, the
    body of the `POST` and the credentials (used if one of them is not empty,
    src/helpers/curl.cpp:137-140). -/
structure HttpPost where
  url : String
  port : Nat
  body : String
  auth : Option String
  deriving DecidableEq, Repr

/-- The request made for a notification (src/handlers/status_notifier_handler.cpp:58,
    src/helpers/curl.cpp:100-146). -/
def httpPost (cfg : NotifierConfig) (n : Notification) : HttpPost where
  url := cString (notificationUrl cfg n)
  port := cfg.port
  body := cString (httpQuery n.params)
  auth := if cfg.username.length ≠ 0 ∨ cfg.password.length ≠ 0 then
    some (cString (cfg.username ++ ":" ++ cfg.password)) else none

/-- What the notifier thread does in the outside world while handling a notification. -/
inductive NAct where
  /-- an attempt to post and whether it succeeded (`curl_post` returned normally) -/
  | post (r : HttpPost) (ok : Bool)
  /-- `sleep_for`, in seconds -/
  | sleep (seconds : Nat)
  deriving DecidableEq, Repr

/-- The loop `while (retries > 0)` (src/handlers/status_notifier_handler.cpp:55-65); `outcome i` is
    whether the `i`-th attempt would succeed.  Gives what was done; `curl_post` raises nothing but
    `curl_exception` (exhausted memory aside). -/
def retryLoop (r : HttpPost) (outcome : Nat → Bool) : (retries : Nat) → (delay : Nat) →
    (attempt : Nat) → List NAct
  | 0, _, _ => []
  | retries + 1, delay, i =>
    if outcome i then [.post r true]
    else .post r false :: .sleep delay :: retryLoop r outcome retries (delay * 2) (i + 1)

/-- `status_notifier_handler::on_request` (src/handlers/status_notifier_handler.cpp:18-66).  The
    response callback is never used. -/
def notifierOnRequest (cfg : NotifierConfig) (outcome : Nat → Bool) (m : Msg) :
    Except UB (List NAct) :=
  match parseNotification m.data with
  | .error u => .error u
  | .ok n => .ok (retryLoop (httpPost cfg n) outcome 4 1 0)

end Broker
