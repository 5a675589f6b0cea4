{"id": "C01", "title": "Encrypt then Decrypt returns the object", "statement": "If Encrypt succeeds and returns an ID, an immediately following Decrypt of that ID by any caller whose ID or one of whose groups was granted access (with the Decrypt scope on both the caller and the matching ID) returns exactly the plaintext and associated data that were passed in, including nil and empty slices.", "quantifier": "every plaintext, associated data, group list, caller identity, key set, random choice and prior store content", "why_tests_cant": "Tests use a handful of literal objects; the claim ranges over all byte strings and all prior store contents.", "anchors": ["d1.go:Encrypt", "d1.go:Decrypt", "data/object.go:Seal", "data/object.go:Unseal", "crypto/cryptor.go"]}
{"id": "C02", "title": "Any sequence of calls behaves like a simple access-controlled map", "statement": "With a correct IO Provider and no concurrent calls, the results of any sequence of Encrypt, Update, Decrypt, Delete, GetAccessGroups, AddGroupsToAccess, RemoveGroupsFromAccess and AuthorizeIdentity calls are exactly those of a plain map from object ID to (object, set of group IDs), where an ID is recorded with every byte that is not valid UTF-8 replaced by U+FFFD (as it is when it is valid, see C18).", "quantifier": "all finite call histories, all callers, all IDs and data, all random choices", "why_tests_cant": "The space of histories is infinite; tests run a few fixed scripts.", "anchors": ["d1.go:Encrypt", "d1.go:Update", "d1.go:Decrypt", "d1.go:Delete", "d1.go:GetAccessGroups", "d1.go:AddGroupsToAccess", "d1.go:RemoveGroupsFromAccess", "d1.go:AuthorizeIdentity"]}
{"id": "C03", "title": "Unauthenticated calls do nothing", "statement": "If the Identity Provider rejects the token, every object and access method returns ErrNotAuthenticated without issuing a single IO Provider call or drawing randomness.", "quantifier": "every method, every argument, every IO Provider behaviour", "why_tests_cant": "Tests check one bad token per method and do not observe the absence of IO calls.", "anchors": ["utility.go:verifyAccess", "d1.go"]}
{"id": "C04", "title": "Each method enforces its documented scope", "statement": "If the authenticated caller's own scopes lack the scope documented for a method, the method returns ErrNotAuthorized and issues no IO Provider call.", "quantifier": "every method, every 64-bit scope value, every IO Provider behaviour", "why_tests_cant": "There are 2^64 scope values and arbitrary store contents.", "anchors": ["utility.go:verifyAccess", "id/scope.go:Contains"]}
{"id": "C05", "title": "No result and no write without an authorizing access list", "statement": "Whatever the IO Provider answers (faulty, concurrent or malicious), Update, Decrypt, Delete, GetAccessGroups, AddGroupsToAccess, RemoveGroupsFromAccess and AuthorizeIdentity return data or issue a write or delete only if an access record the provider returned for exactly that object ID was accepted by the access cryptor as bound to that ID and lists an ID of the caller (own ID or group) that itself carries the required scope.", "quantifier": "every method, every sequence of provider responses", "why_tests_cant": "Needs all provider behaviours, including adversarial ones, not a sample of stores.", "anchors": ["utility.go:authorizeAccess", "utility.go:getSealedAccess", "d1.go"]}
{"id": "C06", "title": "The authorization decision does not depend on map iteration order", "statement": "Access is granted exactly when some ID of the caller is in the access list and that ID's scopes contain the required scope; Go's randomized map iteration order cannot change the decision.", "quantifier": "every identity, access list, scope and every iteration order", "why_tests_cant": "Iteration order is chosen by the runtime; tests cannot enumerate orders.", "anchors": ["utility.go:authorizeAccess", "id/id.go:GetIDs", "id/id.go:GetIDScope"]}
{"id": "C07", "title": "Operations on one object leave everything else untouched", "statement": "A call that names (or creates) one object ID never changes what the IO Provider stores under any other object ID or any other data type, whatever the outcome of the call, including crashes part-way and injected IO failures.", "quantifier": "every method, store, outcome, crash point and fault pattern", "why_tests_cant": "Requires all crash points and all unrelated records.", "anchors": ["d1.go", "utility.go:putSealedObject", "utility.go:putSealedAccess"]}
{"id": "C08", "title": "Delete is idempotent and can be retried after any failure", "statement": "However many times Delete crashes or fails at any of its IO calls, a later Delete by an authorized caller that meets no failure returns success and leaves neither object nor access record; a Delete of an absent object succeeds and changes nothing.", "quantifier": "every crash point and fault pattern, every number of earlier failed attempts", "why_tests_cant": "Tests inject one or two specific failures.", "anchors": ["d1.go:Delete"]}
{"id": "C09", "title": "An interrupted Encrypt is invisible", "statement": "If Encrypt stops at any point before its last write takes effect, no existing object changes and every Decrypt, Update, GetAccessGroups, AddGroupsToAccess, RemoveGroupsFromAccess and AuthorizeIdentity of the new ID by an authenticated caller with the scope of the call reports ErrAccessNotFound.", "quantifier": "every crash point, every argument and store", "why_tests_cant": "Crash points and stores are unbounded in combination.", "anchors": ["d1.go:Encrypt"]}
{"id": "C10", "title": "Delete after an interrupted Encrypt removes the stored object", "statement": "After an Encrypt that was interrupted at any point, a Delete of the ID by the creator that reports success leaves no object data in the IO Provider (the code comment claims a missing access entry implies a deleted object).", "quantifier": "every crash point of Encrypt", "why_tests_cant": "Only a reasoning over all crash points shows the comment's claim; tests do not crash Encrypt.", "anchors": ["d1.go:Delete", "d1.go:Encrypt"]}
{"id": "C11", "title": "Update is all-or-nothing under a crash", "statement": "If Update is interrupted at any point, a later Decrypt by an authorized caller returns either the old object or the new object.", "quantifier": "every crash point of Update, every object and store", "why_tests_cant": "Tests never crash Update between its two writes.", "anchors": ["d1.go:Update"]}
{"id": "C12", "title": "Concurrent calls on the same object never make it unreadable or lose an acknowledged change", "statement": "If several Update, AddGroupsToAccess and RemoveGroupsFromAccess calls on one object run concurrently and all report success, then afterwards the object decrypts to the data of one of the Updates and the access list reflects every acknowledged group change.", "quantifier": "every interleaving of the IO calls", "why_tests_cant": "Interleavings are not controlled by tests; failure needs a specific schedule.", "anchors": ["d1.go:Update", "d1.go:AddGroupsToAccess", "d1.go:RemoveGroupsFromAccess"]}
{"id": "C13", "title": "A Decrypt that succeeds returns data that was stored for that very ID", "statement": "If Decrypt returns an object, then, unless the AEAD was forged, exactly that plaintext and associated data were passed to Encrypt or Update for that same object ID, even if the storage is malicious and moves, swaps or replays records between objects.", "quantifier": "every store content, every set of previously sealed objects", "why_tests_cant": "Adversarial stores cannot be enumerated.", "anchors": ["data/object.go:Seal", "data/object.go:Unseal", "utility.go:getSealedObject", "data/access.go:Seal"]}
{"id": "C14", "title": "An access list cannot be transplanted between objects", "statement": "If an access record is accepted for an object ID then, unless the AEAD was forged, it was sealed for that same object ID; the OID stored inside the record is never trusted.", "quantifier": "every store content", "why_tests_cant": "Adversarial stores cannot be enumerated.", "anchors": ["utility.go:getSealedAccess", "data/access.go:Unseal"]}
{"id": "C15", "title": "Group changes act on the access list exactly as set operations", "statement": "AddGroupsToAccess makes the list the union with the given groups, RemoveGroupsFromAccess the difference, GetAccessGroups returns exactly the set; order and repetition of arguments do not matter and the object's contents and readability are unaffected.", "quantifier": "every list of groups (any order, duplicates), every access list, every store", "why_tests_cant": "Infinite argument lists.", "anchors": ["data/access.go:AddGroups", "data/access.go:RemoveGroups", "data/access.go:ContainsGroups", "d1.go:AddGroupsToAccess", "d1.go:RemoveGroupsFromAccess", "d1.go:GetAccessGroups"]}
{"id": "C16", "title": "A revoked caller loses all access until re-granted", "statement": "Once RemoveGroupsFromAccess has succeeded and left none of a caller's IDs in the list, no method called by that caller on that object succeeds in any continuation in which nobody adds one of those IDs again (Delete of the object after somebody else deleted it is a successful no-op).", "quantifier": "every continuation of the call history", "why_tests_cant": "Requires all later histories.", "anchors": ["d1.go:RemoveGroupsFromAccess", "utility.go:authorizeAccess"]}
{"id": "C17", "title": "Removing the last group locks the object forever", "statement": "Once the access list is empty, no sequence of calls by anybody can ever read, change, re-share or delete the object.", "quantifier": "every continuation, every caller", "why_tests_cant": "Requires all later histories.", "anchors": ["d1.go:RemoveGroupsFromAccess", "utility.go:authorizeAccess"]}
{"id": "C18", "title": "Access list entries are compared faithfully", "statement": "A group ID that was granted access is in the access list, and an ID that was never granted is not, for every ID string.", "quantifier": "every string, including ones that are not valid UTF-8", "why_tests_cant": "Needs all byte strings through the JSON encoding.", "anchors": ["data/access.go:Seal", "crypto/cryptor.go:Encrypt", "d1.go:AddGroupsToAccess"]}
{"id": "C19", "title": "IO failures are reported, never swallowed", "statement": "If an object or access method reports success then every IO Provider call it made succeeded, with the single documented exception of Delete on a missing access record; success of a writing method means its writes took effect.", "quantifier": "every fault pattern", "why_tests_cant": "Fault patterns multiply with call positions.", "anchors": ["d1.go", "utility.go"]}
{"id": "C20", "title": "Stored ciphertext size", "statement": "The ciphertext stored for an object is len(plaintext) + 48 bytes, as documented on Encrypt.", "quantifier": "every plaintext length", "why_tests_cant": "A length formula over all lengths.", "anchors": ["d1.go:Encrypt", "crypto/cryptor.go:Encrypt", "crypto/aes.go:Overhead"]}
{"id": "C21", "title": "Plaintext reaches the IO Provider only through the AEAD", "statement": "The requests Encrypt and Update make to the IO Provider depend on the plaintext only through the AEAD ciphertext: two plaintexts whose AEAD outputs agree produce identical requests, and the same holds for the group list.", "quantifier": "every pair of plaintexts, group lists, and every random choice", "why_tests_cant": "A relational property over pairs of runs.", "anchors": ["d1.go:Encrypt", "d1.go:Update", "data/object.go:Seal", "data/access.go:Seal"]}
{"id": "C22", "title": "New accepts exactly 32-byte keys", "statement": "New, NewStandalone and NewSecureIndex succeed exactly when each key they use is 32 bytes long, and fail with the documented error otherwise.", "quantifier": "every key length", "why_tests_cant": "Infinite key lengths.", "anchors": ["d1.go:New", "crypto/cryptor.go:NewAESCryptor", "index/index.go:NewSecureIndex", "id/standalone.go:NewStandalone", "crypto/tagger.go:NewKMAC256Tagger"]}
{"id": "C23", "title": "Tokens return their contents until they expire and never after", "statement": "GetTokenContents of a token made by CreateToken returns exactly the plaintext at every instant up to and including the expiry time and an error at every later instant; LoginUser tokens behave the same way and the reported expiry is that time in Unix seconds.", "quantifier": "every plaintext, creation time and read time", "why_tests_cant": "All instants.", "anchors": ["data/token.go", "d1.go:CreateToken", "d1.go:GetTokenContents", "id/standalone.go:LoginUser"]}
{"id": "C24", "title": "Token expiry cannot be extended", "statement": "If a token is accepted then, unless the AEAD was forged, it was issued with exactly that contents and exactly that expiry time.", "quantifier": "every token presented", "why_tests_cant": "Adversarial tokens.", "anchors": ["data/token.go:Unseal"]}
{"id": "C25", "title": "Token strings round-trip and garbage is rejected", "statement": "TokenFromString(String(t)) = t for every sealed token, and any string with a character outside the URL-safe base64 alphabet (other than CR/LF) is rejected.", "quantifier": "every token, every string", "why_tests_cant": "Infinite strings.", "anchors": ["data/token.go:String", "data/token.go:TokenFromString"]}
{"id": "C26", "title": "A token string is the only string for its token", "statement": "Two different strings never denote the same accepted identity token.", "quantifier": "every pair of strings", "why_tests_cant": "Infinite strings.", "anchors": ["data/token.go:TokenFromString"]}
{"id": "C27", "title": "The secure index behaves like a map from keyword to list of identifiers", "statement": "After any sequence of Add, Delete and Search calls, Search(kw) returns exactly the identifiers added for kw and not deleted since, in the order added, with one entry per Add.", "quantifier": "all histories, keywords, identifiers", "why_tests_cant": "Infinite histories, including re-adding after deletes at any position.", "anchors": ["index/index.go:Add", "index/index.go:Search", "index/index.go:Delete", "index/index.go:deleteNode", "index/index.go:getLastNode"]}
{"id": "C28", "title": "Index delete removes every occurrence and nothing else", "statement": "Delete(kw, id) makes Search(kw) the previous result without id (order of the rest preserved) and never changes the result of Search for another keyword.", "quantifier": "every index state reachable by any history, every keyword and identifier", "why_tests_cant": "Infinite states.", "anchors": ["index/index.go:Delete", "index/index.go:deleteNode"]}
{"id": "C29", "title": "Index operations terminate", "statement": "Add, Search and Delete terminate on every reachable index, and even if a malicious IO Provider answers each request with any earlier genuine record for that label.", "quantifier": "every history and every replay strategy", "why_tests_cant": "The loops are unbounded in the code.", "anchors": ["index/index.go:Search", "index/index.go:Delete", "index/index.go:getLastNode"]}
{"id": "C30", "title": "A crash during index Delete is harmless", "statement": "If Delete is interrupted at any IO call, then afterwards every later history of Add, Delete and Search gives results as if Delete had either removed or not removed each occurrence.", "quantifier": "every crash point and later history", "why_tests_cant": "Crash points times histories.", "anchors": ["index/index.go:deleteNode"]}
{"id": "C31", "title": "A crash during index Add is atomic", "statement": "If Add is interrupted at any IO call the index is exactly as before or exactly as after the Add.", "quantifier": "every crash point", "why_tests_cant": "Crash points.", "anchors": ["index/index.go:Add"]}
{"id": "C32", "title": "Concurrent Adds and Searches on the index are linearizable", "statement": "With an atomic IO Provider, when any number of Add and Search calls run concurrently on the same keyword, the acknowledged Adds appear exactly once each in the order of their writes, Adds that lost a race report ErrNodeAlreadyExists and leave no trace, and every Search returns the contents at one moment during its run.", "quantifier": "every number of callers and every interleaving", "why_tests_cant": "Interleavings.", "anchors": ["index/index.go:Add", "index/index.go:Search", "io/bolt.go:Put"]}
{"id": "C33", "title": "Concurrent Add and Delete on the index never lose an acknowledged Add", "statement": "If an Add and a Delete of a different identifier run concurrently on one keyword and both report success, the added identifier is found afterwards.", "quantifier": "every interleaving", "why_tests_cant": "Interleavings.", "anchors": ["index/index.go:Add", "index/index.go:Delete"]}
{"id": "C34", "title": "Index calls require authentication and the Index scope", "statement": "Add, Search and Delete issue no IO call and return the documented error unless the caller is authenticated with the Index scope.", "quantifier": "every caller, scope value, provider behaviour", "why_tests_cant": "2^64 scopes.", "anchors": ["index/index.go:verifyAccess"]}
{"id": "C35", "title": "Index records of different keywords and counters never collide", "statement": "Two different (keyword, counter) pairs give different labels unless the Keccak sponge collides on the two distinct inputs made for the two keywords or on the two distinct inputs made for the two labels.", "quantifier": "every pair of keywords and 64-bit counters", "why_tests_cant": "2^128 counter pairs and all keywords.", "anchors": ["data/node.go:NextLabel", "crypto/tagger.go:Tag", "crypto/kdf.go:KMACKDF", "index/index.go:getTaggerAndCryptor"]}
{"id": "C36", "title": "Index identifiers are returned as they were added", "statement": "Search returns the identifier string byte for byte, and Delete with the same string removes it, for every string.", "quantifier": "every byte string", "why_tests_cant": "All byte strings through JSON.", "anchors": ["data/node.go:Seal", "index/index.go:Delete"]}
{"id": "C37", "title": "Login succeeds exactly with the current password", "statement": "LoginUser(uid, pwd) succeeds for the password returned by the latest NewUser or ChangeUserPassword for uid, and for another password only if PBKDF2 collides; failures are always ErrNotAuthenticated.", "quantifier": "every history of Standalone calls, every password", "why_tests_cant": "All histories and strings.", "anchors": ["id/standalone.go:LoginUser", "id/standalone.go:ChangeUserPassword", "id/standalone_user.go", "crypto/password.go"]}
{"id": "C38", "title": "Any sequence of Standalone calls behaves like a simple directory", "statement": "The results of any sequence of NewUser, LoginUser, ChangeUserPassword, NewGroup, AddUserToGroups, RemoveUserFromGroups, DeleteUser and GetIdentity calls are those of a plain directory of users (password verifier, scopes, set of groups) and groups (scopes).", "quantifier": "all histories", "why_tests_cant": "Infinite histories.", "anchors": ["id/standalone.go"]}
{"id": "C39", "title": "GetIdentity reports the user's current scopes and groups", "statement": "For a valid token, GetIdentity returns the token's user ID, the scopes given at NewUser, and exactly the groups the user is currently in, each with the group's scopes; after DeleteUser it fails at once.", "quantifier": "every reachable directory state", "why_tests_cant": "Infinite states.", "anchors": ["id/standalone.go:GetIdentity"]}
{"id": "C40", "title": "Only members can change group membership", "statement": "AddUserToGroups and RemoveUserFromGroups change anything only if the caller is a member of every named group.", "quantifier": "every caller, every list of group IDs, every provider behaviour", "why_tests_cant": "Infinite lists.", "anchors": ["id/standalone.go:AddUserToGroups", "id/standalone.go:RemoveUserFromGroups"]}
{"id": "C41", "title": "Membership changes keep the directory usable", "statement": "No sequence of successful AddUserToGroups calls by other users can make GetIdentity fail for an existing user with a valid token.", "quantifier": "every history", "why_tests_cant": "Requires all histories and odd arguments.", "anchors": ["id/standalone.go:AddUserToGroups", "id/standalone.go:GetIdentity", "id/id.go:GetIDs"]}
{"id": "C42", "title": "A stored user or group record cannot be substituted for another", "statement": "If the IO Provider returns another user's (or group's) genuine record for a user ID, the Standalone provider rejects it.", "quantifier": "every store content", "why_tests_cant": "Adversarial stores.", "anchors": ["id/standalone.go:getUser", "id/standalone.go:getGroup"]}
{"id": "C43", "title": "Identity tokens come only from LoginUser", "statement": "A token accepted by GetIdentity was produced by LoginUser of the same provider for the same user, unless the AEAD was forged; D1.CreateToken tokens are never accepted.", "quantifier": "every token, every configuration of keys", "why_tests_cant": "Adversarial tokens and key configurations.", "anchors": ["id/standalone.go:GetIdentity", "d1.go:CreateToken", "data/token.go"]}
{"id": "C44", "title": "Group membership controls object access end to end", "statement": "With D1 on top of Standalone, adding a user to a group on an object's access list lets them decrypt and removing them takes effect on their next call.", "quantifier": "every directory and object store state", "why_tests_cant": "Composition of two stateful components over all states.", "anchors": ["d1.go:Decrypt", "id/standalone.go:GetIdentity", "id/standalone.go:RemoveUserFromGroups"]}
{"id": "C45", "title": "Scope arithmetic is set arithmetic", "statement": "Contains is bit-set inclusion (reflexive, transitive, antisymmetric), ScopeUnion is the least upper bound of its arguments regardless of order and repetition, the nine named scopes are distinct single bits and ScopeAll contains exactly them.", "quantifier": "every 64-bit scope and every list of scopes", "why_tests_cant": "2^64 values and infinite lists.", "anchors": ["id/scope.go"]}
{"id": "C46", "title": "GetIDs and GetIDScope agree", "statement": "GetIDs is exactly the caller's ID and its group IDs; GetIDScope returns the caller's scopes for its own ID (also when a group has the same ID), the group's scopes for a group ID and ScopeNone for anything else.", "quantifier": "every identity and string", "why_tests_cant": "Infinite identities.", "anchors": ["id/id.go"]}
{"id": "C47", "title": "Key wrapping round-trips", "statement": "Unwrap(Wrap(k)) = k for every k of 16 to 8192 bytes and every 16- or 32-byte wrapping key, and the wrapped form is 8*ceil(len/8)+8 bytes.", "quantifier": "every key, wrapping key and length in range", "why_tests_cant": "Tests sample lengths and random keys.", "anchors": ["crypto/kwp.go:Wrap", "crypto/kwp.go:Unwrap", "crypto/kwp.go:computeW", "crypto/kwp.go:invertW", "crypto/kwp.go:wrappingSize"]}
{"id": "C48", "title": "Key unwrapping accepts only genuine wrappings", "statement": "Unwrap accepts a byte string only if it is the wrapping of the returned key, so every other string of any length is rejected and no two strings unwrap to the same key.", "quantifier": "every byte string", "why_tests_cant": "Infinite strings.", "anchors": ["crypto/kwp.go:Unwrap"]}
{"id": "C49", "title": "AES-GCM buffers are laid out consistently", "statement": "For every 32-byte key, AES256GCM.Decrypt(Encrypt(p, a), a) = p, the output is ciphertext, tag and nonce in that order and is len(p)+28 bytes; keys of other lengths and inputs shorter than 28 bytes are rejected.", "quantifier": "every plaintext, associated data, key and nonce", "why_tests_cant": "Infinite inputs.", "anchors": ["crypto/aes.go"]}
{"id": "C50", "title": "Cryptor round-trips and binds the associated data", "statement": "Cryptor.Decrypt of Cryptor.Encrypt's output with the same data returns the value; any acceptance under different data is an AEAD forgery.", "quantifier": "every JSON value, associated value, key and random choice", "why_tests_cant": "Infinite inputs.", "anchors": ["crypto/cryptor.go"]}
{"id": "C51", "title": "Decrypting does not damage the ciphertext", "statement": "Cryptor.Decrypt leaves the caller's ciphertext and wrapped key buffers unchanged, so it can be repeated with the same result.", "quantifier": "every buffer content and outcome", "why_tests_cant": "Aliasing over all buffers.", "anchors": ["crypto/cryptor.go:Decrypt", "crypto/aes.go:Decrypt"]}
{"id": "C52", "title": "KMAC length encodings match the standard", "statement": "leftEncode and rightEncode of every 64-bit value are the SP 800-185 left_encode and right_encode: minimal big-endian bytes with the byte count before or after; both are injective, and leftEncode is prefix-free.", "quantifier": "all 2^64 values", "why_tests_cant": "2^64 values.", "anchors": ["crypto/kmac.go:leftEncode", "crypto/kmac.go:rightEncode"]}
{"id": "C53", "title": "KMAC padding matches the standard", "statement": "bytepad returns left_encode(w), the input and zero bytes up to the next multiple of w, as SP 800-185 defines, for every input.", "quantifier": "every input and block size", "why_tests_cant": "Infinite lengths; only exact multiples behave differently.", "anchors": ["crypto/kmac.go:bytepad"]}
{"id": "C54", "title": "A KMAC depends only on the bytes written since the last Reset", "statement": "For any sequence of Write, Sum and Reset calls, Sum returns its argument followed by the KMAC of the concatenation of the bytes written since the last Reset, and Sum does not change later results.", "quantifier": "all histories", "why_tests_cant": "Infinite histories.", "anchors": ["crypto/kmac.go:Sum", "crypto/kmac.go:Reset", "crypto/kmac.go:newKMAC"]}
{"id": "C55", "title": "KMAC inputs are unambiguous", "statement": "Different (key, tag size, customization, message) tuples are fed to the sponge as different byte strings.", "quantifier": "all tuples", "why_tests_cant": "Infinite tuples.", "anchors": ["crypto/kmac.go:newKMAC", "crypto/kmac.go:Sum", "crypto/kdf.go"]}
{"id": "C56", "title": "KDF contexts are separated", "statement": "KMACKDF with different labels or different context lists feeds different inputs to the sponge.", "quantifier": "all labels and context lists", "why_tests_cant": "Infinite lists.", "anchors": ["crypto/kdf.go:KMACKDF"]}
{"id": "C57", "title": "Generated passwords verify and only they do", "statement": "Compare accepts the generated password against its salt-and-hash, accepts another only if PBKDF2 collides, and never panics on stored records.", "quantifier": "every random choice and password", "why_tests_cant": "Infinite passwords.", "anchors": ["crypto/password.go"]}
{"id": "C58", "title": "The in-memory provider is a map", "statement": "Any sequence of Put, Get, Update, Delete on Mem gives the results of a plain map keyed by (ID, data type).", "quantifier": "all histories, IDs, types, data", "why_tests_cant": "Infinite histories; needs key encoding injectivity.", "anchors": ["io/mem.go"]}
{"id": "C59", "title": "The Bolt provider is a map", "statement": "Any sequence of Put, Get, Update, Delete on Bolt gives the results of a plain map keyed by (ID, data type).", "quantifier": "all histories, IDs, types, data including empty data", "why_tests_cant": "Infinite histories.", "anchors": ["io/bolt.go"]}
{"id": "C60", "title": "Storage keys never collide", "statement": "Different (ID, data type) pairs use different storage keys in Mem and in Bolt, and all data types used by D1, the index and Standalone are distinct.", "quantifier": "all ID byte strings of any length and all 16-bit types", "why_tests_cant": "Infinite IDs.", "anchors": ["io/mem.go:newKey", "io/bolt.go", "io/io.go:DataType", "id/standalone.go:DataTypeSealedUser"]}
{"id": "C61", "title": "Put never overwrites under concurrency", "statement": "When several Puts for one key run concurrently, exactly one succeeds and its data is what is stored.", "quantifier": "every interleaving", "why_tests_cant": "Interleavings.", "anchors": ["io/mem.go:Put", "io/bolt.go:Put"]}
{"id": "C62", "title": "Providers do not write into the caller's ID buffer", "statement": "Bolt's methods and D1.Encrypt leave every byte of the caller's slices unchanged, including bytes beyond the slice length in the same backing array.", "quantifier": "every slice, length, capacity", "why_tests_cant": "Aliasing over all slices.", "anchors": ["io/bolt.go:Put", "d1.go:Encrypt"]}
{"id": "C63", "title": "No call panics on stored data", "statement": "Any D1, token, index and Standalone calls run concurrently against an IO Provider that at the start holds anything except user records, and that then fails, loses writes and replays old records as it likes: no call panics.", "quantifier": "all histories and fault patterns", "why_tests_cant": "Infinite histories.", "anchors": ["data/access.go:AddGroups", "id/standalone_user.go:addGroups", "crypto/password.go:Compare", "crypto/kmac.go:NewKMAC256"]}
{"id": "C64", "title": "The proxy is transparent", "statement": "A default Proxy returns exactly what the wrapped provider returns and passes it exactly the same arguments.", "quantifier": "all calls", "why_tests_cant": "All argument values.", "anchors": ["io/proxy.go"]}
{"id": "C65", "title": "Search returns only identifiers that were added", "statement": "Whatever calls run before or at the same time, wherever they crash, whichever IO calls fail and whichever genuine records for a label the IO Provider replays, every identifier a Search returns was in the index before or was passed to Add for that very keyword.", "quantifier": "all sets of concurrent calls, interleavings, crashes, IO failures and replays", "why_tests_cant": "Infinitely many interleavings and replays.", "anchors": ["index/index.go:Search", "index/index.go:Add", "index/index.go:Delete", "data/node.go:59-65"]}
{"id": "C66", "title": "Wrapping is KWP of NIST SP 800-38F", "statement": "Wrap of a key of 16 to 8192 bytes returns exactly KWP-AE of the standard (Algorithm 5 over the wrapping function W of Algorithm 1), and Unwrap of a string of an accepted size succeeds with exactly the key KWP-AD (Algorithms 6 and 2) returns and fails when it fails.", "quantifier": "all block ciphers, wrapping keys, key sizes and contents, all ciphertexts", "why_tests_cant": "A round trip cannot tell a wrong round count or round constant; test vectors cover a few sizes.", "anchors": ["crypto/kwp.go:computeW", "crypto/kwp.go:invertW", "crypto/kwp.go:Wrap", "crypto/kwp.go:Unwrap"]}
{"id": "C67", "title": "The in-memory provider keeps its own copy", "statement": "What Mem.Get returns is what was last stored, even when the caller of Put or Update writes into the slice it passed, or the caller of Get into the slice it got.", "quantifier": "all slices, contents and writes", "why_tests_cant": "Aliasing over all slices and writes.", "anchors": ["io/mem.go:Put", "io/mem.go:Get", "io/mem.go:Update"]}
{"id": "C68", "title": "The mock random source never hands out a byte twice", "statement": "Over any sequence of GetBytes calls on a MockRandom, the successful answers followed by the bytes left are exactly the bytes it was given; each answer has the size asked for, and a request for more than is left fails and takes nothing.", "quantifier": "all byte strings and request sequences", "why_tests_cant": "Infinite request sequences.", "anchors": ["crypto/random.go:MockRandom.GetBytes"]}
{"id": "C69", "title": "Calls that do not conflict are linearizable", "statement": "Let any calls of Encrypt, Update, Decrypt, Delete, GetAccessGroups, AddGroupsToAccess, RemoveGroupsFromAccess and AuthorizeIdentity run concurrently, with callers crashing at any point, such that no two changes of one object overlap and no Decrypt of an object overlaps an Update or Delete of it. Then there is one order of the calls, consistent with real time, in which an atomic map from IDs to (data, access list) gives every result that was reported, and at the end the store represents that map except for objects a call in progress is creating, replacing or deleting.", "quantifier": "all interleavings, crash points, stores, objects, groups, identities", "why_tests_cant": "Linearizability is a claim about all interleavings and needs the existence of an order.", "anchors": ["d1.go:Encrypt", "d1.go:Update", "d1.go:Decrypt", "d1.go:Delete", "d1.go:GetAccessGroups", "d1.go:AddGroupsToAccess", "d1.go:RemoveGroupsFromAccess", "d1.go:AuthorizeIdentity"]}
{"id": "C70", "title": "Acknowledged changes of a user are kept", "statement": "When several calls of the Standalone provider run concurrently and report success, every acknowledged change of a user (password, group memberships, deletion) is in effect afterwards unless another of these calls undid it.", "quantifier": "all interleavings, crash points and IO failures", "why_tests_cant": "Interleavings.", "anchors": ["id/standalone.go:ChangeUserPassword", "id/standalone.go:AddUserToGroups", "id/standalone.go:RemoveUserFromGroups", "id/standalone.go:NewGroup", "id/standalone.go:DeleteUser"]}
{"id": "C71", "title": "Standalone calls that do not conflict are linearizable", "statement": "Let any calls of NewUser, LoginUser, ChangeUserPassword, AddUserToGroups, RemoveUserFromGroups, DeleteUser, NewGroup and GetIdentity run concurrently, with callers crashing at any point, such that no call that changes the record of a user overlaps a call that makes a change relying on that record. Then there is one order of the calls, consistent with real time, in which an atomic directory of users and groups gives every result that was reported, and at the end the store represents that directory (and nothing else unless a group is being created).", "quantifier": "all interleavings, crash points, directories, tokens, names", "why_tests_cant": "Linearizability is a claim about all interleavings and needs the existence of an order.", "anchors": ["id/standalone.go:NewUser", "id/standalone.go:LoginUser", "id/standalone.go:ChangeUserPassword", "id/standalone.go:AddUserToGroups", "id/standalone.go:RemoveUserFromGroups", "id/standalone.go:DeleteUser", "id/standalone.go:NewGroup", "id/standalone.go:GetIdentity"]}
{"id": "C72", "title": "New names are version 4 UUIDs of fresh random bytes", "statement": "The ID that Encrypt returns and the names that NewUser and NewGroup return are RFC 4122 version 4 UUIDs (the names in canonical text form) whose other 122 bits are what the random source returned during that call; two of them are equal if and only if these 122 bits are.", "quantifier": "all inputs, states, identity providers and IO failures", "why_tests_cant": "All random streams; a wrong version or variant bit still gives names that work.", "anchors": ["d1.go:Encrypt", "id/standalone.go:NewUser", "id/standalone.go:NewGroup"]}
{"id": "C73", "title": "The index uses a separate key for every purpose and keyword", "statement": "The key with which the labels of a keyword are computed and the key under which its nodes are sealed differ from each other and from both keys of every other keyword: two of them are equal only if the Keccak sponge collides on the two explicit inputs they are derived from.", "quantifier": "all index keys, all pairs of keywords and purposes", "why_tests_cant": "All keywords; sharing a key changes no result.", "anchors": ["index/index.go:getTaggerAndCryptor", "crypto/kdf.go:KMACKDF"]}
{"id": "C74", "title": "Success is never reported over a failed request", "statement": "A Search that succeeds has read the list from its beginning to a node which the IO Provider said is not there, every record read was genuine, and the result is what they hold. An Add that succeeds has read the list likewise and stored exactly the new node at the end found. A Delete that succeeds has gone through the list to its end and every overwrite and delete was answered positively. A Standalone call that succeeds got a positive answer to every request and the random source did not fail.", "quantifier": "all calls, all answers of the IO Provider (errors, corrupt or foreign records), of the random source and of the clock", "why_tests_cant": "Each request can fail in several ways at every position of an unbounded loop; a swallowed error gives a shorter result that looks right.", "anchors": ["index/index.go:Add", "index/index.go:Search", "index/index.go:Delete", "index/index.go:getLastNode", "index/index.go:getNextNode", "id/standalone.go"]}
{"id": "C75", "title": "The library behaves on its own providers as on an abstract store", "statement": "A call running alone on Mem ends as on an abstract map from (ID, data type) to bytes and leaves the same records. Any calls running concurrently on Bolt end as on the abstract map and leave the same records, as long as no record exceeds bbolt's limits; a record that does is reported as a failure of that request without effect. No call of the library writes empty data, which Bolt could not give back.", "quantifier": "all calls, states, interleavings, random sources, clocks and IO failures", "why_tests_cant": "Needs a simulation between the states of the provider and the abstract store over all executions.", "anchors": ["io/mem.go", "io/bolt.go", "d1.go", "index/index.go", "id/standalone.go"]}
{"id": "C76", "title": "Concurrent calls behave on Mem as on an atomic provider", "statement": "When calls of the library run concurrently on Mem, whose Put and Update are a Load followed by a Store, they end as on a provider whose methods are atomic, and leave the same records.", "quantifier": "all calls and all interleavings of the operations on the sync.Map", "why_tests_cant": "The window between Load and Store is a few instructions.", "anchors": ["io/mem.go:Put", "io/mem.go:Update", "d1.go", "index/index.go:Add"]}
{"id": "C77", "title": "Group lists are sets", "statement": "After any sequence of additions and removals, the group list of a user and an access list contain exactly the IDs whose last mention was an addition (or that were never mentioned and were there before). containsGroups is true exactly if all IDs asked for are on the list. No edit panics or changes another field.", "quantifier": "all sequences of edits, all lists and IDs", "why_tests_cant": "All sequences.", "anchors": ["id/standalone_user.go:addGroups", "id/standalone_user.go:removeGroups", "id/standalone_user.go:containsGroups", "data/access.go:AddGroups", "data/access.go:RemoveGroups", "data/access.go:ContainsGroups"]}
{"id": "C78", "title": "With AES, GCM, Keccak and PBKDF2 as standardized, nothing has to be assumed", "statement": "Everything that the other theorems assume about the primitives is true of AES (FIPS 197), GCM (SP 800-38D), cSHAKE (FIPS 202), PBKDF2 with HMAC-SHA3-256 (RFC 8018), RFC 3339 times, UUID and JSON text. In particular: keys wrapped under any 16- or 32-byte AES key unwrap to themselves; AES-256-GCM decrypts exactly what it encrypts; and from an empty store any sequence of D1 and Standalone calls gives exactly the results of a directory and a vault.", "quantifier": "all keys, blocks, plaintexts, associated data, nonces, times; all sequences of calls", "why_tests_cant": "2^128 blocks under 2^256 keys; tests check a few known answers.", "anchors": ["crypto/aes.go", "crypto/kwp.go", "crypto/kmac.go", "crypto/password.go", "d1.go", "id/standalone.go"]}
{"id": "C79", "title": "Only the issued password is accepted", "statement": "LoginUser and ChangeUserPassword accept no password other than the one that was issued to the user.", "quantifier": "all passwords, salts and records", "why_tests_cant": "All other passwords; the accepted variants do not look like passwords.", "anchors": ["crypto/password.go:Compare", "id/standalone.go:LoginUser", "id/standalone.go:ChangeUserPassword"]}
{"id": "C80", "title": "Changed ciphertexts are refused (real AES-GCM)", "statement": "With AES-GCM as in SP 800-38D: of any two different pairs of ciphertext and associated data with the same nonce, both are accepted only under keys whose hash key (the encryption of the zero block) is in a set that depends on the pairs alone and has at most as many elements as the longer has 16-byte blocks, out of 2^128. A change within one block of the ciphertext or of the associated data is refused under every key that does not encrypt the zero block to itself, and a changed tag under every key. An object whose stored ciphertext was so changed makes Decrypt report an error.", "quantifier": "all ciphertexts, associated data, keys and changes; all states and callers", "why_tests_cant": "A test changes one bit under one key; forgeries exist for every pair but only for few keys.", "anchors": ["crypto/aes.go:Decrypt", "data/object.go:Unseal", "d1.go:Decrypt"]}
{"id": "C81", "title": "What the IO Provider learns from the index", "statement": "The IO Provider, which sees every request of the secure index but no key, cannot learn the number of keywords, the number of identifiers, the keywords or the identifiers.", "quantifier": "all sequences of index calls, all keywords and identifiers, all environments", "why_tests_cant": "A statement about all that can be computed from all request sequences; a test sees one sequence.", "anchors": ["index/index.go:Add", "index/index.go:Search", "index/index.go:Delete", "documentation/explainer.md:133-137"]}
{"id": "C82", "title": "What the debug log holds", "statement": "Logging changes nothing else a method does, and every execution has exactly one log. Whatever the providers answer, the log of a method follows a script that is fixed for that method, up to the point where the method stops. Besides the name of the method and the fields of the caller's logger, only these vary: the user ID that the Identity Provider returned, the object ID, the groups given by the caller, the name of a missing scope, the expiry time of a token, the error of a failed authentication, numbers of groups, and in the index the number of nodes visited. In particular no plaintext, key, password, token, keyword or identifier is logged.", "quantifier": "all calls of D1, Standalone and the index, all inputs, all answers of the IO Provider, the Identity Provider, the clock and the random source", "why_tests_cant": "All error paths and answers; a test would look for a few strings in a few logs.", "anchors": ["log/log.go", "utility.go", "d1.go", "id/standalone.go", "index/index.go", "README.md"]}
{"id": "C83", "title": "Index calls that do not conflict are linearizable", "statement": "Let any number of Add, Search and Delete calls run concurrently on the secure index, some of which may crash, such that no Delete is in progress at the same time as another call on the same keyword. Then the results are those of the index specification for the calls made one after the other, in an order in which a call that ended before another began comes first, and the store ends up holding the resulting index (except under keywords whose Delete crashed). The only other result is ErrNodeAlreadyExists of an Add that overlaps with another Add on the same keyword; it has no effect.", "quantifier": "all calls, all interleavings, all stores holding an index; all keywords and identifiers", "why_tests_cant": "All interleavings of all their requests.", "anchors": ["index/index.go:Add", "index/index.go:Search", "index/index.go:Delete", "data/node.go"]}
{"id": "C84", "title": "Every data key, nonce and password is drawn for one use", "statement": "Every record sent to the IO Provider and every token is encrypted under a data key and a nonce that were both drawn from the random source for it alone; the nonce is the end of the ciphertext, and the data key travels wrapped under the key for that type of record (AEK access lists, UEK users, GEK groups, TEK tokens, a key derived from IEK and the keyword for index nodes). Every password is the Base64 text of 32 bytes drawn for it alone. So as long as the random source does not repeat itself, no two ciphertexts ever share a nonce or a data key and no password is issued twice, also across concurrent calls, failed requests and crashes.", "quantifier": "all interleavings of any number of calls of D1, the index and Standalone, cut off anywhere; all answers of the IO Provider, the random source and the clock; all Identity Providers that do not write", "why_tests_cant": "Concerns all pairs of ciphertexts ever made; a reused nonce or key decrypts correctly and passes every round-trip test.", "anchors": ["crypto/cryptor.go:Encrypt", "crypto/aes.go:Encrypt", "crypto/password.go:GeneratePassword", "d1.go", "id/standalone.go", "index/index.go"]}
{"id": "C85", "title": "No way in through concurrency", "statement": "D1 with the Standalone provider. Take an object and any users, the outsiders, such that neither they nor their groups are on its access list. Let any calls of the whole library run concurrently, with IO failures and crashes: the outsiders call whatever they like, in particular they try to share the object, make groups and join groups; the others share the object only with IDs already on its list and do not add outsiders to groups on the list. Then no call an outsider makes on the object succeeds (except Delete of an object that is gone), none of them writes anything or even reads the object record, and the outsiders still hold no ID on the list. So after RemoveUserFromGroups a user that had access through these groups alone is locked out, whatever runs concurrently.", "quantifier": "all objects, all sets of outsiders, all calls of D1, Standalone and the index, all interleavings, all failures and crashes", "why_tests_cant": "All interleavings of all calls; the check and the use of groups are separate requests of different records.", "anchors": ["utility.go:getSealedAccess", "utility.go:authorizeAccess", "d1.go:AddGroupsToAccess", "id/standalone.go:GetIdentity", "id/standalone.go:AddUserToGroups", "id/standalone.go:RemoveUserFromGroups", "id/standalone.go:NewGroup", "id/standalone_user.go"]}
{"id": "C86", "title": "Failures are no worse than crashes", "statement": "Every call of the library stops at the first request to the IO Provider or the random source that fails (a Get answered with not-found is not a failure): it makes no further request and reports an error. So a run with failures goes exactly as without them, or it reports an error and leaves the store as a crash would have left it; also concurrently: the store after any interleaving with failures is the store after an interleaving without failures in which some calls crash, and the calls that report no error report the same. In particular concurrent Add and Search calls on the index remain linearizable with an IO Provider that fails.", "quantifier": "all calls of D1, Standalone and the index; all failures, before or after the request took effect; all crash points and interleavings; all Identity Providers with the same property, such as Standalone", "why_tests_cant": "All combinations of failures at all points; a swallowed error shows only when exactly that request fails.", "anchors": ["d1.go", "utility.go", "index/index.go", "id/standalone.go", "crypto/cryptor.go"]}
{"id": "C87", "title": "Standalone calls do everything or nothing", "statement": "A call of the Standalone provider that crashes at any point, after any failures of the IO Provider and the random source, leaves the user directory as it was before the call or as the whole call leaves it. The one exception is NewGroup, which may leave the new group without members; for every NewGroup that succeeds there is a moment at which a crash has that effect. If the IO Provider does not carry out requests that it answers with an error, then a call that reports an error has left the directory as it was, with the same exception.", "quantifier": "all calls of Standalone, all directories, all failures, all crash points", "why_tests_cant": "All crash points and failures for all calls and directories.", "anchors": ["id/standalone.go:NewUser", "id/standalone.go:ChangeUserPassword", "id/standalone.go:NewGroup", "id/standalone.go:AddUserToGroups", "id/standalone.go:RemoveUserFromGroups", "id/standalone.go:DeleteUser"]}
{"id": "C88", "title": "The whole library is one simple machine", "statement": "Put D1 and the secure index on top of the Standalone provider, all over one IO Provider. Any program that makes calls of the three and decides from their results what to do next comes to exactly what it comes to with a simple machine that has users with passwords, groups, sessions that last an hour, objects with access lists, a table of keywords and a list of issued tokens, and no keys, ciphertexts, hashes or storage at all. The same holds on the library's own Mem and Bolt providers.", "quantifier": "all client programs, all sequences of calls, all keys, contents, random values and clocks; clients that do not forge tokens or find colliding passwords, index keywords whose labels do not collide; no IO failures", "why_tests_cant": "All programs over all calls of three packages; every combination of membership changes, sessions, objects and index entries.", "anchors": ["d1.go", "utility.go", "index/index.go", "id/standalone.go", "data/token.go", "io/mem.go", "io/bolt.go"]}
{"id": "C89", "title": "A call that succeeds had access at some moment", "statement": "D1 with the Standalone provider. If a D1 call on an object (other than Delete, which also succeeds on absent objects) succeeds, then at some moment during the call the stored user record, group records and access list together let the user of the token use the scope of the call on the object. (False of the code: each record was as needed at the moment it was read, in the order user, groups, access list, but there may be no moment at which all were. A user who is taken out of a group before an object is shared with that group can still read the object with a call that began before.)", "quantifier": "all D1 calls on existing objects, concurrently with any programs, all interleavings, failures and crashes", "why_tests_cant": "Shows only in particular interleavings of three calls.", "anchors": ["utility.go:verifyAccess", "utility.go:getSealedAccess", "utility.go:authorizeAccess", "id/standalone.go:GetIdentity", "id/standalone.go:RemoveUserFromGroups", "d1.go:AddGroupsToAccess", "d1.go:Decrypt"]}
{"id": "C90", "title": "Outsiders learn nothing", "statement": "D1 and the index with the Standalone provider. Take two stores that are the same except for the records of one object: its contents, its associated data and its access list may be entirely different, as long as the object exists in both and neither list names an outsider or a group of an outsider. Let any calls of the whole library run concurrently on either store, with the same schedule, draws, clock and IO failures, where whoever calls something on the object is an outsider and nobody else lets outsiders in. Then the same calls end in the same order with exactly the same answers, error for error and session text for session text, and all requests to the IO Provider are the same. So outsiders learn nothing about an object beyond that it exists, whatever they call, not even with the help of each other or by the number and kind of requests.", "quantifier": "all objects, contents and access lists, all sets of outsiders, all calls of D1, Standalone and the index, all interleavings, failures and crashes", "why_tests_cant": "A statement about pairs of executions: no test of one execution can show a difference that is not there in any other.", "anchors": ["utility.go:verifyAccess", "utility.go:getSealedAccess", "utility.go:authorizeAccess", "d1.go", "id/standalone.go:GetIdentity", "index/index.go"]}
{"id": "C91", "title": "Nothing but Decrypt depends on the contents", "statement": "D1 and the index with the Standalone provider. Take two executions that differ only in contents: the plaintexts and associated data that Encrypt and Update are given may be entirely different, and so may the contents of the objects that the store holds already, under the same access lists. Let the calls run concurrently with the same schedule, draws, clock and IO failures. Then they go in lock-step: the same calls end in the same order, every answer but that of Decrypt is exactly the same, and Decrypt itself differs only when both times it came as far as opening the object. All requests to the IO Provider are the same in order, kind, ID and type; only the bytes of object and access records can differ. In particular, calls without Decrypt have the same answers whatever is stored.", "quantifier": "all pairs of lists of calls of D1, Standalone and the index that differ only in contents, all pairs of stores with the same access lists, all interleavings, failures and crashes", "why_tests_cant": "A statement about pairs of executions, for all contents: a branch on the plaintext that is taken for one content only (an empty plaintext, say) is missed by tests that do not try it.", "anchors": ["d1.go:Encrypt", "d1.go:Update", "d1.go:Decrypt", "data/object.go", "data/access.go", "utility.go"]}
{"id": "C92", "title": "Scopes are final", "statement": "D1 and the index with the Standalone provider. The scopes that a user or a group has at some moment it has for good: any calls of the whole library may run concurrently, with any IO failures and crashes, and afterwards every stored user and group still has its scopes, and every identity that was handed out meanwhile shows them. Hence a call of D1 or the index that needs a scope which its caller does not have is answered with an authentication or authorization error, and performs nothing but reading the clock and user and group records. In particular, if everybody who calls Decrypt is without the Decrypt scope, the contents of objects influence no answer of any call, even for users on the access lists, and even if they work together.", "quantifier": "all users, groups and scopes, all calls of D1, Standalone and the index, all interleavings, failures and crashes; for the last part all pairs of executions that differ in contents", "why_tests_cant": "That no sequence of interleaved calls changes a record in some way needs an invariant over all of them; the last part is a statement about pairs of executions.", "anchors": ["id/standalone.go", "id/standalone_user.go", "id/standalone_group.go", "utility.go:verifyAccess", "index/index.go"]}
{"id": "C93", "title": "Callers of the index learn nothing about other keywords", "statement": "D1 and the index with the Standalone provider. What any calls of the library answer, and which requests they send to the IO Provider, does not depend on the index nodes of keywords that the index calls among them do not name: there may be any number of such nodes, keywords and identifiers. Nor does it matter what others do meanwhile: if calls of D1 and index calls about other keywords are interleaved with index calls about some keywords, the latter get exactly the results, and send exactly the requests, that they would get and send alone, in an environment that gives them the draws, clock readings and failures they met. (Labels of the two sets of keywords must not collide; see C35.)", "quantifier": "all sets of keywords, all pairs of stores that agree but for nodes of other keywords, all calls of the library, all environments (draws, clocks, IO failures), all interleavings", "why_tests_cant": "It is a statement about pairs of executions, with arbitrary contents of the rest of the index.", "anchors": ["index/index.go", "documentation/explainer.md:125-126"]}
{"id": "C94", "title": "A call's log fields do not show up in other logs", "statement": "The fields that a method adds to its logger (method, user, object) do not show up in the lines of its caller, of the methods it returns to, or of other calls: every call prints exactly the lines it would print if loggers were values, and its caller's logger keeps its fields. This holds for any calls made one at a time, nested in any way, and for calls made at the same time whose loggers have no room in a common array. (For calls made at the same time with the logger of one context it is false when that logger has spare capacity: CopyCtxLogger copies the slice but not the array, so a line of one call can bear the object of the other.)", "quantifier": "all heaps, all loggers of the callers, all numbers of calls, all sequences of CopyCtxLogger/With.../log lines/returns, all interleavings, all encodings of fields, all choices of the runtime for new arrays", "why_tests_cant": "It depends on which arrays happen to be shared and on the interleaving; a test with fresh loggers or without concurrency cannot see the mix-up.", "anchors": ["log/log.go:24-55", "d1.go:222-249", "utility.go:33-49"]}
{"id": "C95", "title": "The contents of objects are secret from the IO Provider", "statement": "Suppose somebody plays the IO Provider and the clock, sees everything that is sent to it and answers as it likes, decides which calls are made with which arguments and how their steps interleave, sees their results, has Decrypt open anything it likes, and knows all keys except the object key, which is random. For each Encrypt and Update it proposes two plaintexts of the same length, and either always the first or always the second is used. Only when Decrypt answers with a plaintext from one of these pairs (with two different sides) is that plaintext kept from it. Its advantage in telling which is at most the sum of its advantages in telling wrapped keys from wrappings of other random keys while having others unwrapped (twice), and in telling AES-GCM ciphertexts under one-time random keys apart while having other ciphertexts decrypted, by attacks that are written down, run it once, and ask at most as many questions as it makes moves.", "quantifier": "all primitives with the laws, all library instances, all adversaries, all numbers of moves, any other programs running at the same time", "why_tests_cant": "Secrecy is about probabilities over all keys and all adversaries; a test can at most see that a ciphertext is not the plaintext.", "anchors": ["d1.go:119-211", "data/object.go:46-82", "crypto/cryptor.go:54-80", "README.md:7-12"]}
{"id": "C96", "title": "The contents of tokens are secret", "statement": "The same for CreateToken and GetTokenContents: whoever has tokens made with one of two contents of its choice (of the same length) and sees the tokens, chooses what the clock shows, has any tokens opened and sees what is in them unless it is one of the contents it proposed, and knows all keys but the token key, tells which contents were taken at most as well as the attacks that are written down tell wrapped keys and AES-GCM ciphertexts apart.", "quantifier": "all primitives with the laws, all library instances, all adversaries, all numbers of moves, any other programs running at the same time", "why_tests_cant": "Secrecy is about probabilities over all keys and all adversaries.", "anchors": ["d1.go:315-337", "data/token.go:51-88", "README.md:22-23"]}
{"id": "C97", "title": "The keywords of the index are secret from the IO Provider", "statement": "Suppose somebody plays the IO Provider and the clock, sees all requests and answers as it likes, decides which index calls are made and how their steps interleave, and sees all results, but does not know the index key, which is random. For each call it proposes two keywords, adaptively, such that equal keywords on one side are equal on the other. Either always the first or always the second keyword is used. Its advantage in telling which is at most the sum of the advantages of two attacks, which are written down, in telling keys derived with KMACKDF from random ones; they ask two questions per call.", "quantifier": "all primitives with the laws, all indexes, all adversaries, all numbers of moves, any other programs running at the same time", "why_tests_cant": "Secrecy is about probabilities over all keys and all adversaries; a test can at most see that a label is not the keyword.", "anchors": ["index/index.go:80-204", "index/index.go:324-338", "crypto/kdf.go:22-28", "README.md:19-21", "documentation/explainer.md:144-157"]}
{"id": "C98", "title": "Decrypt returns nothing that was not stored, but for a forgery", "statement": "Suppose somebody plays the IO Provider and the clock, sees everything that is sent to it and answers as it likes, decides which calls are made with which arguments and how their steps interleave, sees their results, and knows all keys except the object key, which is random. The probability that some Decrypt for an object ID returns a plaintext and associated data with which neither an Update for this ID nor an Encrypt has sent an object with this ID to be stored, is at most the sum of the advantages of two attacks, which are written down: one tells wrapped keys from wrappings of other random keys, and one forges AES-GCM ciphertexts under one-time random keys. They run the adversary once and ask at most as many questions as it makes moves.", "quantifier": "all primitives with the laws, all library instances, all adversaries, all numbers of moves, any other programs running at the same time", "why_tests_cant": "Authenticity is about probabilities over all keys and all adversaries; a test can at most see that some altered ciphertexts are rejected.", "anchors": ["d1.go:119-256", "data/object.go:46-82", "crypto/cryptor.go:54-101", "README.md:7-12"]}
{"id": "C99", "title": "Calls act only on rights that were granted, but for a forgery", "statement": "Suppose somebody plays the IO Provider and the clock as in C98, decides for each call what the Identity Provider answers, and knows all keys except the access key, which is random. The probability that a call on an object succeeds, or asks the IO Provider to change anything, although the caller has no ID with the scope of the call that was given access to the object, is at most the sum of the advantages of two attacks, which are written down, on key wrapping and AES-GCM. Access is given by an Encrypt that has sent the object with the ID to be stored, to its groups and to its caller, and by an AddGroupsToAccess for the ID that has sent an access record to be stored. (Delete may also succeed without changing anything.)", "quantifier": "all primitives with the laws, all library instances, all adversaries, all numbers of moves, any other programs running at the same time", "why_tests_cant": "Authenticity is about probabilities over all keys and all adversaries.", "anchors": ["d1.go:119-465", "utility.go:33-73", "data/access.go:45-105", "crypto/cryptor.go:54-101"]}
{"id": "C100", "title": "GetTokenContents returns nothing that was not put into a token, but for a forgery", "statement": "The same for tokens: whoever chooses what the clock shows, has tokens made and any tokens opened, sees all of this and knows all keys but the token key, has GetTokenContents return contents for an expiry time with which no CreateToken has returned a token, with at most the sum of the advantages of two attacks, which are written down, on key wrapping and AES-GCM.", "quantifier": "all primitives with the laws, all library instances, all adversaries, all numbers of moves, any other programs running at the same time", "why_tests_cant": "Authenticity is about probabilities over all keys and all adversaries.", "anchors": ["d1.go:315-337", "data/token.go:51-88", "README.md:22-24"]}
{"id": "C101", "title": "Sessions of the Standalone provider come from logins, but for a forgery", "statement": "Suppose somebody plays the IO Provider and the clock of the Standalone provider, sees everything that is sent to it and answers as it likes, decides which calls are made with which arguments and how their steps interleave, sees their results, and knows all keys except the token key, which is random. The probability that a call that takes a token succeeds, or sends anything to the IO Provider, although no LoginUser has returned a token with the expiry time that the token states, is at most the sum of the advantages of two attacks, which are written down: one tells wrapped keys from wrappings of other random keys, and one forges AES-GCM ciphertexts under one-time random keys. For GetIdentity the login was a login of the user whose record it asks for, and whose ID the identity has.", "quantifier": "all primitives with the laws, all Standalone instances, all adversaries, all numbers of moves, any other programs running at the same time", "why_tests_cant": "Authenticity is about probabilities over all keys and all adversaries; a test can at most see that some altered tokens are rejected.", "anchors": ["id/standalone.go:91-130", "id/standalone.go:156-185", "id/standalone.go:210-330", "data/token.go:51-111", "crypto/cryptor.go:54-101"]}
{"id": "C102", "title": "Scopes, memberships and passwords of users were given out, but for a forgery", "statement": "Suppose somebody plays the IO Provider and the clock as in C101 and knows all keys except the user key, which is random. The probability that GetIdentity returns user scopes that no NewUser has sent to be stored, or a group of which nobody was made a member; or that LoginUser or ChangeUserPassword gets past the password check with a password that no record accepts that a NewUser or ChangeUserPassword has sent to be stored; or that AddUserToGroups or RemoveUserFromGroups succeeds, or asks to change anything, for a group that is not the ID of the caller and of which nobody was made a member, is at most the sum of the advantages of two attacks, which are written down, on key wrapping and AES-GCM. Members are made by NewGroup, for the group that it has sent to be stored, and by AddUserToGroups.", "quantifier": "all primitives with the laws, all Standalone instances, all adversaries, all numbers of moves, any other programs running at the same time", "why_tests_cant": "Authenticity is about probabilities over all keys and all adversaries.", "anchors": ["id/standalone.go:91-385", "id/standalone_user.go", "crypto/cryptor.go:54-101"]}
{"id": "C103", "title": "Scopes of groups were given out, but for a forgery", "statement": "Suppose somebody plays the IO Provider and the clock as in C101 and knows all keys except the group key, which is random. The probability that GetIdentity returns a group with scopes with which no NewGroup has sent a group to be stored is at most the sum of the advantages of two attacks, which are written down, on key wrapping and AES-GCM.", "quantifier": "all primitives with the laws, all Standalone instances, all adversaries, all numbers of moves, any other programs running at the same time", "why_tests_cant": "Authenticity is about probabilities over all keys and all adversaries.", "anchors": ["id/standalone.go:91-130", "id/standalone.go:294-330", "id/standalone.go:387-427", "id/standalone_group.go", "crypto/cryptor.go:54-101"]}
{"id": "C104", "title": "No login without a password that was issued, but for a guess or an attack on the primitives", "statement": "Suppose somebody plays the IO Provider and the clock of the Standalone provider, sees everything that is sent to it and answers as it likes, decides which calls are made and how their steps interleave, and knows all keys except the user key, which is random. It sees all results except the passwords that NewUser and ChangeUserPassword return; any of those it can ask to be told, at any time, and it can have LoginUser and ChangeUserPassword called with a password that it is not told. The probability that within n moves a LoginUser or ChangeUserPassword succeeds with a password of its own choice, which does not have the hash of a password that it was told, is at most the sum of the advantages of three attacks, which are written down (one tells wrapped keys from wrappings of other random keys, one forges AES-GCM ciphertexts, one tells AES-GCM ciphertexts from ciphertexts of zeros, all under one-time random keys), and n times the largest probability with which a random password has a given hash. The latter is at most 1/256^32 if no two passwords that can be issued have the same hash with the same salt.", "quantifier": "all primitives with the laws, all Standalone instances, all adversaries, all numbers of moves, any other programs running at the same time", "why_tests_cant": "The claim is about probabilities over all keys and passwords and about all adversaries; a test can at most see that some wrong passwords are rejected.", "anchors": ["id/standalone.go:132-208", "id/standalone_user.go:51-98", "crypto/password.go:40-67", "crypto/cryptor.go:54-101"]}
{"id": "C105", "title": "The identifiers in the index are secret, but for attacks on the primitives", "statement": "Suppose somebody plays the IO Provider and the clock of the secure index, sees everything that is sent to it and answers as it likes (also with records it made up), decides which calls of Add, Search and Delete are made and how their steps interleave, and does not know the index key, which is random. For every Add and every Delete it proposes two identifiers, such that for one keyword the same identifier is proposed again on the left whenever it is on the right, and those to be added are valid text and equally long in JSON. In all calls of one game the left ones are used, or the right ones, and it sees all results, with the identifiers that Search finds replaced by the left ones. Its advantage in telling after n moves which were used is at most the sum of the advantages of attacks that are written down: two that tell derived keys from random ones, and for each keyword five on key wrapping and AES-GCM with a random wrapping key and one-time random keys (telling wrapped keys from wrappings of other keys, forging, telling ciphertexts of messages of equal length apart).", "quantifier": "all primitives with the laws, all indices, all adversaries, all numbers of moves, any other programs running at the same time", "why_tests_cant": "The claim is about all adversaries and the probabilities with which they guess; a test can at most look for an identifier in the stored bytes.", "anchors": ["index/index.go:80-302", "index/index.go:324-396", "data/node.go:22-65", "crypto/cryptor.go:54-101"]}
{"id": "C106", "title": "Who has access to an object is secret, but for attacks on the primitives", "statement": "Suppose somebody plays the IO Provider, the clock and the Identity Provider of the library, sees everything that is sent to the IO Provider and answers as it likes (also with records it made up), decides which calls are made, on whose behalf, and how their steps interleave, and knows all keys except the access key, which is random. With every call it proposes other names for the caller, the groups of the caller, and the groups the call takes, such that two names are equal on one side whenever they are on the other, and all names are valid text and equally long in JSON to those they replace. In all calls of one game the names are replaced, or they are not, and it sees all results, with the groups that GetAccessGroups finds given by the names before replacement. Its advantage in telling after n moves whether names were replaced is at most the sum of the advantages of five attacks, which are written down: two that tell wrapped keys from wrappings of other random keys, two that forge AES-GCM ciphertexts, and one that tells AES-GCM ciphertexts of messages of equal length apart, all under one-time random keys.", "quantifier": "all primitives with the laws, all D1 instances, all adversaries, all numbers of moves, any other programs running at the same time", "why_tests_cant": "The claim is about all adversaries and the probabilities with which they guess; a test can at most look for a group name in the stored bytes.", "anchors": ["d1.go:119-305", "d1.go:353-479", "utility.go:59-73", "utility.go:129-177", "data/access.go:53-105", "crypto/cryptor.go:54-101"]}
{"id": "C107", "title": "Contents of objects are secret from everybody who was not given access, but for attacks on the primitives", "statement": "Suppose somebody plays the IO Provider and the clock, sees everything that is sent to the IO Provider and answers as it likes (also with records it made up), decides which calls of the library are made, with which identity the Identity Provider answers each of them, and how their steps interleave, and sees what the calls answer; it knows neither the object key nor the access key, which are both random. For each Encrypt and Update it proposes two plaintexts of the same length; in one game the left ones are taken, or the right ones. What Decrypt answers is shown to it in full, except when the caller was given access to the object (Encrypt or AddGroupsToAccess was called with a group with whose scopes the caller may decrypt, or Encrypt by the caller) and the answer is one of two different plaintexts that it proposed. Its advantage in telling the sides apart after n moves is at most the sum of the advantages of seven attacks, which are written down: four that tell wrapped keys from wrappings of other keys, one that tells AES-GCM ciphertexts of messages of equal length apart, and two that forge AES-GCM ciphertexts.", "quantifier": "all primitives with the laws, all D1 instances, all adversaries, all identities, all numbers of moves, any other programs running at the same time", "why_tests_cant": "The claim is about all adversaries and the probabilities with which they guess, and combines secrecy of objects with authenticity of access records.", "anchors": ["d1.go:119-305", "d1.go:353-479", "utility.go:59-73", "utility.go:77-177", "data/object.go:43-81", "data/access.go:53-105", "crypto/cryptor.go:54-101"]}
{"id": "C108", "title": "Attacks on the many data keys of objects come down to attacks on a single key", "statement": "Every object and every record is encrypted with a data key of its own. Take an attack on AES-GCM that has at most n messages encrypted, each with a new random key, and tells apart which of two messages of equal length was encrypted, or forges a ciphertext. Then there are n attacks, written down, of which each has at most one message encrypted and asks at most as many questions as the given one, and whose advantages together are at least that of the given attack. Hence contents of objects are secret from everybody without access (C107), but for four attacks on the wrapping key and 5n attacks on a single key of AES-GCM. The bounds of C95, C96, C98 to C106, C112 and C116 are brought to attacks on a single key in the same way.", "quantifier": "all primitives, all attacks, all numbers of encrypted messages (and for the applications all instances of D1, Standalone and the index and all adversaries)", "why_tests_cant": "The claim is about all attacks and their probabilities of success.", "anchors": ["crypto/cryptor.go:54-101", "crypto/aes.go:34-80", "d1.go:119-305"]}
{"id": "C109", "title": "Calls that do not conflict are linearizable even when requests fail", "statement": "Let any calls of the library run concurrently on an IO Provider that may fail at any request, before or after doing what it was asked to, with callers crashing at any point, such that no two conflicting calls (in the sense of C69, C71 and C83) are unsettled at the same time. A call is unsettled while it is in progress, and for good if it is left half done: it has changed something, and then a request of it fails that was not carried out or was not its last one. Then there is one order of calls, consistent with real time, in which the specification gives every result reported by a call without a failure; a call with a failure is in this order only if it has changed something, and takes effect there as a whole. At the end the store represents the state of the specification, except for objects, keywords and groups that an unsettled call was to replace, delete or create. So a call whose only write fails may be repeated, as may one whose first write fails and was not carried out.", "quantifier": "all interleavings, all failures before or after a request took effect, all crash points; all calls of D1, Standalone and the index; all stores, objects, identities, keywords; all Identity Providers that stop when a request of theirs fails", "why_tests_cant": "All interleavings together with all combinations of failures, and the existence of an order.", "anchors": ["d1.go:119-470", "index/index.go:80-300", "id/standalone.go:91-430", "io/io.go:57-71"]}
{"id": "C110", "title": "Every call ends after a number of requests that is known beforehand", "statement": "Whatever the IO Provider, the random source and the clock answer, Encrypt makes at most 5 draws of random bytes and 2 writes; Update 1 read, 4 draws and 2 writes; Decrypt 2 reads; Delete 1 read and 2 writes; GetAccessGroups and AuthorizeIdentity 1 read; AddGroupsToAccess and RemoveGroupsFromAccess 1 read, 2 draws and 1 write; besides the requests of one call of the Identity Provider, which for Standalone are one look at the clock, one read, and one read for each group of the user. The calls of Standalone are bounded in the same way. Hence the calls are wait-free: whatever other calls do and whatever fails, a call that has had that many turns has ended. In an index for which at most N nodes are ever made, an Add or Search that has had N + 4 turns (beyond those of the Identity Provider) has ended with a result or an error.", "quantifier": "all calls, inputs and answers (also of an IO Provider that lies); all interleavings, failures and other programs", "why_tests_cant": "All answers and all interleavings; tests see a few runs and cannot see that no run is longer.", "anchors": ["d1.go:119-470", "index/index.go:80-300", "id/standalone.go:91-430"]}
{"id": "C111", "title": "Contents come only with an access list of their own version", "statement": "An Encrypt or Update makes a version of an object: contents, a data key and an access list; AddGroupsToAccess and RemoveGroupsFromAccess make further lists of a version from a list of it. Let calls run concurrently, crash anywhere, and let the IO Provider answer every request with whatever records it likes, for example from backups. When Decrypt returns contents to a caller, these are the contents of a version, and a list of this same version names the caller, unless the provider presented a forgery. So somebody who was added only to later versions cannot be made to see earlier contents: if nobody among the caller's IDs is on the first list of a version, and every AddGroupsToAccess that adds one of them was let through by a list of another version, then Decrypt does not return the contents of that version to the caller.", "quantifier": "all histories of concurrent calls with arbitrary answers of the IO Provider in which no two calls draw the same data key; all objects, IDs, identities and Identity Providers; all primitives that satisfy the laws", "why_tests_cant": "Unboundedly many calls and arbitrary mixtures of records of different times.", "anchors": ["d1.go:119-250", "d1.go:383-460", "data/object.go:47-82", "data/access.go:45-105"]}
{"id": "C112", "title": "Nothing can be planted in the index, but for attacks on the primitives", "statement": "Consider an adversary that does not know the index key. It is the IO Provider and the clock, decides which calls of Add, Search and Delete with which arguments are made and how their steps are interleaved, and sees all requests and all results. It wins if a Search returns an identifier that no Add was called with for the same keyword, or if a Delete changes anything stored although no Add was called with its identifier for its keyword; an Add counts from when it sends its node. The chance of this is at most the advantage of an attack on the key derivation, plus, for each of the keywords, those of an attack on the wrapping of keys and of a forgery of AES-GCM ciphertexts. So nodes cannot be made up, nor moved from one keyword to another. These attacks run the adversary once; they ask at most twice per move. (That nodes of one keyword can be left out, or be older ones, is not excluded.)", "quantifier": "all adversaries and numbers of moves; all Identity Providers that only read, among them the one of the library; all primitives that satisfy the laws", "why_tests_cant": "A probabilistic statement about all adversaries and all keys.", "anchors": ["index/index.go:80-395", "data/node.go:31-65", "crypto/cryptor.go:54-103", "crypto/kdf.go:22-28"]}
{"id": "C113", "title": "What is drawn is new, but for a small chance", "statement": "Let the random source answer with bytes that are random and independent from moment to moment, or refuse. Then, whatever calls are made and however they are interleaved and answered, also depending on all of these bytes: within T moments the identifiers of new objects differ from each other and from those of the n objects there are, but for a chance of (T*n + T*(T-1)/2)/2^122, and the same holds for the names of new users and groups; no two calls draw the same key, but for T*(T-1)/2/256^32; and nothing of 12 or more bytes is drawn twice, but for T*(T-1)/2/256^12. So C69 (calls that do not conflict are linearizable), C71, C76, C84 (no nonce is used twice), C109 and C111, which assume this, hold but for these chances.", "quantifier": "all stores and directories, numbers of moments, calls, schedules and environments", "why_tests_cant": "A probabilistic statement about all executions; repetitions are far too rare to be observed.", "anchors": ["d1.go:115", "crypto/random.go:27-33", "crypto/password.go:40-56", "id/standalone.go:132-154", "id/standalone.go:294-331", "crypto/cryptor.go:54-81", "crypto/aes.go"]}
{"id": "C114", "title": "What is stored has a fixed format", "statement": "Let any number of calls of the library run interleaved in any way, some cut off, against any IO Provider, random source and clock. Everything sent to the IO Provider is a JSON text in the sense of RFC 8259, in UTF-8, without whitespace and with nothing in it that ends a line or means something in HTML. It is the document laid down for its type: an object (type 0) has members Ciphertext, AssociatedData and OID, an access list (1) OID, Ciphertext and WrappedKey, a node (2) Ciphertext and WrappedKey, a user (4) UID, Ciphertext and WrappedKey, a group (5) GID, Ciphertext and WrappedKey, in this order. Byte strings are in padded base64 (RFC 4648), object identifiers in the text form of RFC 4122. Ciphertext is the AES-256-GCM ciphertext followed by its 12 byte nonce; the plaintext and the bound data are themselves such JSON texts, with the members and identifiers laid down, and bind the document to the identifier it is stored with. A token is the unpadded URL-safe base64 of such a document, and a password that of 32 bytes. A text is that of one value only, and a base64 text that of one byte string only.", "quantifier": "all values, byte strings, calls, interleavings, environments and cut-offs", "why_tests_cant": "Tests compare with what the same code reads back; that all texts, for all names and contents, are in a fixed unambiguous format is a statement about all values.", "anchors": ["data/object.go:34-64", "data/access.go:36-66", "data/node.go:22-65", "data/token.go:28-111", "id/standalone_user.go:28-98", "id/standalone_group.go:28-50", "crypto/aes.go", "crypto/cryptor.go:54-81", "index/index.go:344-396", "utility.go:70-150", "io/io.go:36-41"]}
{"id": "C115", "title": "The labels of the index differ, but for attacks on the key derivation", "statement": "Let the key of the index be random. For n different keywords and counters up to N, the M = n*(N+1) labels under which nodes are stored all differ, but for the advantage of n+1 attacks on the key derivation, plus M*(M-1)/2/256^32. The first attack asks for the key of each keyword, the others for the labels of one keyword. So C27 (the calls give the results of a map from keywords to lists of identifiers) and C83 (calls that do not conflict are linearizable), which assume that labels differ, hold for all calls, also such as depend on the key, but for these chances.", "quantifier": "all lists of keywords, numbers of calls, stores without nodes, schedules and environments without faults; all primitives that satisfy the laws", "why_tests_cant": "A probabilistic statement about all keys; equal labels are far too rare to be observed.", "anchors": ["index/index.go:80-395", "crypto/tagger.go:22-49", "crypto/kdf.go:22-28", "crypto/kmac.go:40-148"]}
{"id": "C116", "title": "The scopes of users and groups are secret, but for attacks on the primitives", "statement": "Suppose somebody plays the IO Provider and the clock of the Standalone identity provider, sees everything that is sent to the IO Provider and answers as it likes, decides which calls are made and how their steps interleave, and knows all keys except the one for users (or the one for groups), which is random. With every NewUser (or NewGroup) it proposes other scopes, such that the scopes of two calls are equal on one side whenever they are on the other, and print with equally many decimal digits as those they replace. In all calls of one game the scopes are replaced, or they are not, and it sees all results, with the scopes that GetIdentity finds given as before replacement. Its advantage in telling after n moves whether scopes were replaced is at most the sum of the advantages of five attacks, which are written down: two that tell wrapped keys from wrappings of other random keys, two that forge AES-GCM ciphertexts, and one that tells AES-GCM ciphertexts of messages of equal length apart, all under one-time random keys.", "quantifier": "all primitives with the laws, all Standalone instances, all adversaries, all numbers of moves, any other programs running at the same time", "why_tests_cant": "A probabilistic statement about all adversaries and interleavings; tests can only try particular ones.", "anchors": ["id/standalone.go:91-154", "id/standalone.go:294-430", "id/standalone_user.go:29-137", "id/standalone_group.go:24-59", "crypto/cryptor.go:54-103"]}
{"id": "C117", "title": "Things of one kind are not taken for another, even under equal keys", "statement": "Suppose objects, access lists, tokens, index nodes, users and groups are all encrypted under one and the same key. If something that was sealed as one of these kinds is unsealed successfully as another, then it is one of the following, or AES-GCM has opened a ciphertext for associated data that it was not sealed for, under the key and the nonce that were drawn for it: an object with nil contents and no associated data is taken for the access list of that object, which gives access to nobody; an object with nil contents, whose ID and associated data make up a label, is taken for a node without contents; a user is taken for a group of the same name, with the scopes of the user; a group is taken for a user of the same name, with the scopes of the group and without password and memberships. These four do happen.", "quantifier": "all primitives with the laws, all keys, all contents, names, times (that print with a colon, as those of years 0 to 9999 do) and all random bytes", "why_tests_cant": "The claim is about all pairs of kinds and all contents; tests use different keys for different kinds, so that nothing can be mixed up.", "anchors": ["data/object.go:47-82", "data/access.go:53-105", "data/token.go:57-88", "data/node.go:46-65", "id/standalone_user.go:92-98", "id/standalone_user.go:131-137", "id/standalone_group.go:43-59", "crypto/cryptor.go:54-103"]}
{"id": "C118", "title": "Every error names its cause", "statement": "Whatever the Identity Provider, the IO Provider and the random source answer, the error of a call on D1 tells what happened. ErrNotAuthenticated: the Identity Provider failed, and nothing else was asked. ErrNotAuthorized: the identity lacks the scope, or the access list that was fetched last is genuine and does not admit the caller. ErrAccessNotFound: the last request was a Get or an Update of the access record and was answered with not found (and the call is no Delete). ErrObjectNotFound: the same for the object, in Decrypt and Update. ErrObjectAlreadyExists and ErrAccessAlreadyExists: the Put of Encrypt was answered with already exists. An error of the random source: the last draw failed. An error of the IO Provider is passed on unchanged: the last request was answered with it, and it is none of those that are translated. A failure to decode or decrypt: the access record that was fetched last is not genuine, or the object that was fetched last does not open with the key of the genuine access list. There are no other errors. CreateToken fails only when the random source does, and GetTokenContents reports that the token has expired exactly when it has at the only time it looks at, and otherwise that the token is not genuine. The other way round, when a call fails and the last thing that happened is a failed request or draw of D1, the error is the one that belongs to that failure, provided that the Identity Provider does not use the records of D1 and draws no random bytes.", "quantifier": "all primitives with the laws, all calls, all answers of the providers and of the random source", "why_tests_cant": "There are infinitely many sequences of answers; tests provoke a few of the errors and do not look for other causes of the same error.", "anchors": ["utility.go:33-177", "d1.go:119-337", "d1.go:353-479", "data/token.go:57-88"]}
{"id": "C119", "title": "Every error of the secure index names its cause", "statement": "Whatever the Identity Provider, the IO Provider and the random source answer, the error of Add, Search or Delete of the index tells what happened. ErrNotAuthenticated: the Identity Provider failed, and nothing else was asked. ErrNotAuthorized: the identity lacks the Index scope, and nothing else was asked. ErrNodeNotFound comes only from Delete, and the last request was an Update of a node of the keyword that was answered with not found. ErrNodeAlreadyExists comes only from Add, and the last request was a Put of a node of the keyword that was answered with already exists. An error of the random source: the last draw failed, and the call is no Search. An error of the IO Provider is passed on unchanged: the last request was about a node of the keyword and was answered with it, and it is none of those that are translated or that end the chain. A failure to decode or decrypt: the node of the keyword that was fetched last is not genuine. There are no other errors. The other way round, when a call fails and the last thing that happened is a failed request for a node or a failed draw, the error is the one that belongs to that failure, and no call ever fails because a node that it asked for is missing, provided that the Identity Provider does not use the nodes of the index and draws no random bytes.", "quantifier": "all primitives with the laws, all index keys of 32 bytes (as NewSecureIndex demands), all calls, all lengths of chains, all answers of the providers and of the random source", "why_tests_cant": "There are infinitely many sequences of answers; tests provoke a few of the errors and do not look for other causes of the same error.", "anchors": ["index/index.go:80-206", "index/index.go:212-299", "index/index.go:303-395"]}
{"id": "C120", "title": "Every error of the standalone Identity Provider names its cause", "statement": "Whatever the IO Provider and the random source answer and whatever the clock says, the error of a call on the standalone Identity Provider tells what happened. ErrNotAuthenticated with a token: the token is malformed, or the clock was the only thing asked and the token says nothing at that time. ErrNotAuthenticated with a password: the user record could not be read, is not genuine, or does not match the password, or the random source failed. ErrNotAuthorized: the caller names a group it is not a member of, and only the caller was looked up. ErrUserNotFound: the last request was a Get or an Update of the user that the call is about or that makes the call, and was answered with not found; a Get only where no password is checked. ErrGroupNotFound: the last request was a Get of a group answered with not found. ErrUserAlreadyExists and ErrGroupAlreadyExists: the Put of NewUser or NewGroup was answered with already exists. An error of the random source: the last draw failed, in a call that writes a record. An error of the IO Provider is passed on unchanged: the last request was answered with it, and it is none of those that are translated. A failure to decode or decrypt: the user or group record that was fetched last is not genuine, and no password is checked. There are no other errors. The other way round, when a call fails and the last thing that happened is a failed request or a failed draw, the error is the one that belongs to that failure (for a change of the password, only when it is a failed request: a failed draw is reported in two ways).", "quantifier": "all primitives with the laws, all keys, all calls, all times and all answers of the IO Provider and of the random source", "why_tests_cant": "There are infinitely many sequences of answers; tests provoke a few of the errors and do not look for other causes of the same error.", "anchors": ["id/standalone.go:91-328", "id/standalone.go:332-430", "id/standalone_user.go:67-89"]}
{"id": "C121", "title": "Nothing is left behind", "statement": "Whatever calls a client makes on the Standalone provider, on D1 and on the Secure Index, starting with an empty store and deciding from the results what to call next, afterwards the store holds exactly these records: one object record and one access record under the ID of every object that was made and not deleted, one record under the name of every user that was made and not deleted, one for every group, and as many nodes as there are identifiers in the index, counted over all keywords. There is nothing else in the store, under no ID and no data type. The same holds of the map inside the Mem provider and of the bucket of the Bolt provider, which have no other keys than those of these records. So when everything was deleted again, the store is as empty as it was at first; in particular a client that makes a user, logs in, encrypts an object, adds an identifier to the index, deletes the identifier, the object and the user, leaves no trace. When requests or the random source do fail, in whatever way, records are still only made under IDs of objects, as users and groups, and under labels of keywords that were used.", "quantifier": "all primitives with the laws, all keys, all clients, all random values, all instants; requests to the IO Provider do not fail (an interrupted Encrypt does leave an object behind, see C10), node labels do not collide, the client does not break the cryptography (as in C88); for Bolt, records are within the limits of bbolt", "why_tests_cant": "Tests look for the records that should be there; that no other record exists, for any history of calls, is a statement about the whole store.", "anchors": ["d1.go:119-159", "d1.go:258-305", "index/index.go:80-118", "index/index.go:159-206", "index/index.go:212-251", "id/standalone.go:132-152", "id/standalone.go:280-291", "id/standalone.go:294-328"]}
