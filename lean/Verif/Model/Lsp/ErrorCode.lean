/-
csskit_lsp/src/jsonrpc/error_code.rs
-/

namespace Hdx.Lsp

/-- csskit_lsp/src/jsonrpc/error_code.rs:8-71 `ErrorCode`. -/
inductive ErrorCode where
  | parseError | invalidRequest | methodNotFound | invalidParams | internalError | reservedErrorStart | serverNotInitialized
  | unknownErrorCode | reservedErrorEnd | lspReservedErrorStart | contentModified | requestCancelled | lspReservedErrorEnd
  | unknown (code : Int32)
  deriving DecidableEq, Repr

/-- csskit_lsp/src/jsonrpc/error_code.rs:74-98 `From<ErrorCode> for i32`. -/
def ErrorCode.toI32 : ErrorCode → Int32
  | .parseError => -32700
  | .invalidRequest => -32600
  | .methodNotFound => -32601
  | .invalidParams => -32602
  | .internalError => -32603
  | .reservedErrorStart => -32099
  | .serverNotInitialized => -32002
  | .unknownErrorCode => -32001
  | .reservedErrorEnd => -32000
  | .lspReservedErrorStart => -32899
  | .contentModified => -32801
  | .requestCancelled => -32800
  | .lspReservedErrorEnd => -32800
  | .unknown code => code

/-- csskit_lsp/src/jsonrpc/error_code.rs:100-123 `From<i32> for ErrorCode`. -/
def ErrorCode.ofI32 (value : Int32) : ErrorCode :=
  if value = -32700 then .parseError
  else if value = -32600 then .invalidRequest
  else if value = -32601 then .methodNotFound
  else if value = -32602 then .invalidParams
  else if value = -32603 then .internalError
  else if value = -32099 then .reservedErrorStart
  else if value = -32002 then .serverNotInitialized
  else if value = -32001 then .unknownErrorCode
  else if value = -32000 then .reservedErrorEnd
  else if value = -32899 then .lspReservedErrorStart
  else if value = -32801 then .contentModified
  else if value = -32800 then .requestCancelled
  else .unknown value

end Hdx.Lsp
