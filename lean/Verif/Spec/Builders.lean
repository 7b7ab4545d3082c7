import Verif.Model.Builders

/-!
# Specification vocabulary for the builders: histories of calls
-/

namespace Verif

/-- The argument of the last call of a kind in a history of calls; `pick` selects the kind. -/
def lastArg {C α : Type} (pick : C → Option α) (calls : List C) : Option α := calls.reverse.findSome? pick

/-- One call of the interface of `HttpRequestBuilder`. -/
inductive RequestCall where
  | method (x : Bytes) | url (x : Bytes) | headers (x : List Header) | body (x : Bytes) | certificateVersion (x : UInt16)

namespace RequestCall
/-- What the call does. -/
def run (b : RequestBuilder) : RequestCall → RequestBuilder
  | method x => b.withMethod x
  | url x => b.withUrl x
  | headers x => b.withHeaders x
  | body x => b.withBody x
  | certificateVersion x => b.withCertificateVersion x
def method? : RequestCall → Option Bytes | method x => some x | _ => none
def url? : RequestCall → Option Bytes | url x => some x | _ => none
def headers? : RequestCall → Option (List Header) | headers x => some x | _ => none
def body? : RequestCall → Option Bytes | body x => some x | _ => none
def certificateVersion? : RequestCall → Option UInt16 | certificateVersion x => some x | _ => none
end RequestCall

/-- One call of the interface of `HttpResponseBuilder`. -/
inductive ResponseCall where
  | status (x : UInt16) | headers (x : List Header) | body (x : Bytes) | upgrade (x : Bool)

namespace ResponseCall
/-- What the call does. -/
def run (b : ResponseBuilder) : ResponseCall → ResponseBuilder
  | status x => b.withStatus x
  | headers x => b.withHeaders x
  | body x => b.withBody x
  | upgrade x => b.withUpgrade x
def status? : ResponseCall → Option UInt16 | status x => some x | _ => none
def headers? : ResponseCall → Option (List Header) | headers x => some x | _ => none
def body? : ResponseCall → Option Bytes | body x => some x | _ => none
def upgrade? : ResponseCall → Option Bool | upgrade x => some x | _ => none
end ResponseCall

/-- One call of the interface of `DefaultFullCelExpressionBuilder`. -/
inductive CelCall where
  | requestHeaders (x : List Bytes) | queryParams (x : List Bytes) | response (x : RespCert)

namespace CelCall
/-- What the call does. -/
def run (b : FullCelBuilder) : CelCall → FullCelBuilder
  | requestHeaders x => b.withRequestHeaders x
  | queryParams x => b.withQueryParams x
  | response x => b.withResponse x
def requestHeaders? : CelCall → Option (List Bytes) | requestHeaders x => some x | _ => none
def queryParams? : CelCall → Option (List Bytes) | queryParams x => some x | _ => none
def response? : CelCall → Option RespCert | response x => some x | _ => none
end CelCall

end Verif
