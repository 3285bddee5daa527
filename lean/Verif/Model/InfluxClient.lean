import Verif.Model.Writer

/-! # Model of the requests of `writer/influxclient.go`

The classification of the outcome is in `Verif.Model.Writer`. -/

namespace Spout

/-- The settings that `newInfluxClient` reads, writer/influxclient.go:27-43. -/
structure ClientConf where
  protocol : Bytes
  address : Bytes
  port : Int
  dbName : Bytes
  user : Bytes
  pass : Bytes

/-- The `influxClient` fields, writer/influxclient.go:46-52 (`debug` changes only the text of
errors; the transport is not modelled). -/
structure InfluxClient where
  url : Bytes
  username : Bytes
  password : Bytes

/-- `newInfluxClient`, writer/influxclient.go:27-43. -/
def newInfluxClient (c : ClientConf) : InfluxClient :=
  { url := c.protocol ++ b!"://" ++ c.address ++ b!":" ++ itoa c.port ++ b!"/write?db=" ++ c.dbName   -- 29
    username := c.user
    password := c.pass }

/-- A request handed to `http.Client.Do`. writer/influxclient.go:57-65. -/
structure Request where
  method : Bytes
  url : Bytes
  contentType : Bytes
  /-- `SetBasicAuth` -/
  auth : Option (Bytes × Bytes)
  body : Bytes
  deriving DecidableEq, Repr

/-- What the network does with a request: `client.Do` fails or a response with a status. writer/influxclient.go:65-71. -/
inductive NetResult where
  | failed
  | answered (code : Int)
  deriving DecidableEq, Repr

/-- `Write`, writer/influxclient.go:56-83: the request sent, if any, and the error.  `valid`
says which URLs `http.NewRequest` accepts (57), `net` is what comes of the request (65). -/
def InfluxClient.write (ic : InfluxClient) (valid : Bytes → Bool) (net : Request → NetResult) (buf : Bytes) :
    Option Request × Option ClientError :=
  if valid ic.url then
    let req : Request := {
      method := b!"POST"                                                    -- 57
      url := ic.url
      contentType := b!"application/json; charset=UTF-8"                    -- 61
      auth := if ic.username ≠ [] then some (ic.username, ic.password) else none   -- 62-64
      body := buf }
    match net req with
    | .failed => (some req, writeError .transport)                          -- 66-68
    | .answered code => (some req, writeError (.status code))               -- 71-82
  else (none, writeError .badRequest)                                       -- 58-60

end Spout
