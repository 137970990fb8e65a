import Verif.Model.Builder

/-! # Ready-made responses -/

namespace Webparse

/-- src/http/response.rs:347-381: a builder with a status and a content type. -/
def ResponseBuilder.ready (status : Nat) (contentType : String) : ResponseBuilder :=
  (ResponseBuilder.new.status status).header (asciiBytes "content-type") (asciiBytes contentType)

/-- src/http/response.rs:347-351 (`Response::text`). -/
def Response.text : ResponseBuilder := .ready 200 "text/plain; charset=utf-8"

/-- src/http/response.rs:353-357 (`Response::json`). -/
def Response.json : ResponseBuilder := .ready 200 "application/json; charset=utf-8"

/-- src/http/response.rs:359-363 (`Response::status404`). -/
def Response.status404 : ResponseBuilder := .ready 404 "text/html; charset=utf-8"

/-- src/http/response.rs:365-369 (`Response::status503`). -/
def Response.status503 : ResponseBuilder := .ready 503 "text/html; charset=utf-8"

/-- src/http/response.rs:371-375 (`Response::status502`). -/
def Response.status502 : ResponseBuilder := .ready 502 "text/html; charset=utf-8"

/-- src/http/response.rs:377-381 (`Response::status500`). -/
def Response.status500 : ResponseBuilder := .ready 500 "text/html; charset=utf-8"

end Webparse
