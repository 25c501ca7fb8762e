import Verif.Serve.HttpProps

/-!
# The server: requests, cases and counterexamples
-/
namespace WG.Serve.Http
open WG.Csv (Str Byte asc)

/-- A new thread with a buffer of zeros. -/
def new : Th := fresh (List.replicate 100 0#8)

/-- Any state after the requests given. -/
def after (t : Th) : List (List Byte) → Th
  | [] => t
  | inp :: r => after (request 100 [0#8] (List.replicate 10 0#8) t inp).1 r

/-- A GET, a POST and what they ask; the second request is read by the same thread. -/
theorem demo_http :
    (request 100 [] [] new (asc "GET /dserve?op=count&db=7 HTTP/1.0\r\nHost: x\r\n\r\n")).2 = .query (asc "op=count&db=7") ∧
    (request 100 [] (List.replicate 10 0#8) (after new [asc "GET /dserve?op=count&db=7 HTTP/1.0\r\n\r\n"])
      (asc "POST / HTTP/1.0\r\nHost: x\r\nContent-Length: 13\r\nAccept: *\r\n\r\nop=count&db=8&more")).2 = .query (asc "op=count&db=8") ∧
    (request 100 [] [] new (asc "PUT / HTTP/1.0\r\n\r\n")).2 = .method ∧
    (request 100 [] [] new (asc "GET / HTTP/1.0\r\n\r\n")).2 = .noQuery ∧
    (request 100 [] [] new (asc "GET /?op=count\r\n\r\n")).2 = .request := by decide +kernel

/-- The hypotheses of `C80_get_partial` and `C80_post_partial` are met by these requests. -/
theorem demo_http_met : Word (asc "/dserve") ∧ 63#8 ∉ asc "/dserve" ∧ Word (asc "op=count&db=7") ∧ OneLine (asc "HTTP/1.0\r") ∧
    (firstLine (asc "GET") (asc "/dserve" ++ 63#8 :: asc "op=count&db=7") (asc "HTTP/1.0\r")).length < 100 ∧
    Other (asc "Host: x\r") ∧ Attach.Digits (asc "13") ∧ Attach.value (asc "13") = (asc "op=count&db=8").length ∧
    firstLine (asc "POST") (asc "/") (asc "HTTP/1.0\r") ++ (lines [asc "Host: x\r"] ++ (lengthLine (asc "13") ++ (lines [asc "Accept: *\r"] ++ (asc "\r\n" ++ (asc "op=count&db=8" ++ asc "&more"))))) =
      asc "POST / HTTP/1.0\r\nHost: x\r\nContent-Length: 13\r\nAccept: *\r\n\r\nop=count&db=8&more" := by
  refine ⟨?_, ?_, ?_, ?_, ?_, ⟨?_, ?_, ?_, ?_⟩, ⟨?_, ?_⟩, ?_, ?_⟩
  · unfold Word; decide +kernel
  · decide +kernel
  · unfold Word; decide +kernel
  · unfold OneLine; decide +kernel
  · decide +kernel
  · unfold OneLine; decide +kernel
  · decide +kernel
  · decide +kernel
  · decide +kernel
  · decide +kernel
  · decide +kernel
  · decide +kernel
  · decide +kernel

/-- After a POST, a GET without a query makes the same thread read the freed data of the POST. -/
theorem C80_freed_counterexample :
    (request 100 [] [] (after new [asc "POST / HTTP/1.0\r\nContent-Length: 13\r\n\r\nop=count&db=8"]) (asc "GET / HTTP/1.0\r\n\r\n")).2 = .bad := by decide +kernel

/-- After a GET with a query, a GET without one is not refused: a part of its path is taken as the query. -/
theorem C80_stale_counterexample :
    (request 100 [] [] (after new [asc "GET /?op=count&db=7 HTTP/1.0\r\n\r\n"]) (asc "GET /x-op=drop HTTP/1.0\r\n\r\n")).2 = .query (asc "-op=drop") ∧
    (request 100 [] [] new (asc "GET /x-op=drop HTTP/1.0\r\n\r\n")).2 = .noQuery := by decide +kernel

/-- A client that sends nothing: a part of what an earlier client sent is taken as the query, a whole query if it was encoded. -/
theorem C80_silent_counterexample :
    (request 100 [] [] (after new [asc "GET /?op=count&db=7 HTTP/1.0\r\n\r\n"]) []).2 = .query (asc "op") ∧
    (request 100 [] [] (after new [asc "GET /?op%3Dcount%26db%3D7=1 HTTP/1.0\r\n\r\n"]) []).2 = .query (asc "op=count&db=7") := by decide +kernel

/-- A new thread reads bytes that were never written, if the client sends nothing. -/
theorem C80_unset_counterexample : (request 100 [] [] (fresh (List.replicate 100 65#8)) []).2 = .bad := by decide +kernel

/-- A line without a version is refused or not, as the thread has served another request before or not. -/
theorem C80_short_counterexample :
    (request 100 [] [] (after new [asc "GET /?op=count&db=7 HTTP/1.0\r\n\r\n"]) (asc "GET /?op=count\n")).2 = .query (asc "op=count\n") ∧
    (request 100 [] [] new (asc "GET /?op=count\n")).2 = .request := by decide +kernel

/-- What follows the data of a POST in memory becomes a part of the query. -/
theorem C80_post_counterexample :
    (request 100 [] (asc "7&x=yz" ++ [0#8, 0#8, 0#8, 0#8]) new (asc "POST / HTTP/1.0\r\nContent-Length: 13\r\n\r\nop=count&db=8")).2 = .query (asc "op=count&db=87&x=yz") ∧
    (request 100 [] (asc "7777777777") new (asc "POST / HTTP/1.0\r\nContent-Length: 13\r\n\r\nop=count&db=8")).2 = .bad := by decide +kernel

/-- Header names are not compared as HTTP says: `CONTENT-LENGTH` is not found. -/
theorem C80_name_counterexample :
    (request 100 [] [0#8] new (asc "POST / HTTP/1.0\r\nCONTENT-LENGTH: 13\r\n\r\nop=count&db=8")).2 = .noQuery := by decide +kernel

end WG.Serve.Http
