import Verif.Http.WebProofs
/-!
# Properties C106 and C107: the lookups and the pages of the server

The server is /repo/src/trident/server/server.cpp.  A store is what the handler gets from the database: the results of queries and the texts of ids.
-/
namespace Trident.Http

open Spec (Files place parts Under Shows Label Occurs First bytes IsJson Doc)

/-! ## C106: lookups -/

/-- The text of a request for `/lookup`: the headers `h` up to the type of the form, `m` from there to the parameter `id`, its value `v`, and what follows. -/
def lookupRequest (h m v rest : Text) : Text := ascii "POST /lookup HTTP" ++ (h ++ (formType ++ (m ++ (ascii "id" ++ 61 :: (v ++ rest)))))

/-- The type of the form, and after it the name `id`, are found first where they stand. -/
def LookupForm (h m v rest : Text) : Prop :=
  First formType (ascii "POST /lookup HTTP" ++ h) (formType ++ (m ++ (ascii "id" ++ 61 :: (v ++ rest)))) ∧ First (ascii "id") (formType ++ m) (ascii "id" ++ 61 :: (v ++ rest)) ∧
    (rest = [] ∨ ∃ r, rest = 38 :: r)

theorem requestOf_value {h m rest v : Text} (hn : 38 ∉ v) (hf : LookupForm h m v rest) : requestOf (lookupRequest h m v rest) = some (.lookup v) := by
  obtain ⟨h1, h2, h3⟩ := hf
  have hv : valueParam (formType ++ (m ++ (ascii "id" ++ 61 :: (v ++ rest)))) (ascii "id") = v := by
    rw [← List.append_assoc]
    exact valueParam_first h2.2 (by decide +kernel) (by decide +kernel) hn h3
  rw [lookupRequest, requestOf_lookup h1, hv]

theorem requestOf_id {h m rest : Text} {n : Nat} (hf : LookupForm h m (decimal n) rest) : requestOf (lookupRequest h m (decimal n) rest) = some (.lookup (decimal n)) :=
  requestOf_value (fun h => by have := decimal_digit h; omega) hf

/-- **C106 (lookup, part).** A lookup of an id of the store returns JSON with the text of the term, whatever requests came before.
Missing: ids from 2^31 on (`C106_large_violated`) and ids that are not in the store (`C106_unknown_violated`). -/
theorem C106_lookup_partial (files : Files) (store : Store) (w : Web) {h m rest t s : Text} {n : Nat} (hf : LookupForm h m (decimal n) rest) (hn : n < 2147483648)
    (hg : store.get n = some t) (hl : Label t s) :
    ∃ page, (processRequest files store w (lookupRequest h m (decimal n) rest)).1 = .sends (responseText true page) ∧ IsJson page (.obj [(bytes "value", .str s)]) := by
  obtain ⟨page, hp, hne, hj⟩ := lookupPage_json s
  refine ⟨page, ?_, hj⟩
  simp only [processRequest, requestOf_id hf, lookup_label hn hg hl, hp, finish, if_neg hne]

/-- **C106 (stop, part).** After a request that is answered, `stop` returns.  Missing: other requests (`C106_large_violated`). -/
theorem C106_stop_partial (files : Files) (store : Store) (w : Web) (req res : Text) (h : (processRequest files store w req).1 = .sends res) : CanStop (processRequest files store w req).2 := by
  have key : ∀ w json page, (finish files w json page).2.isActive = false := by
    intro w json page
    unfold finish
    split <;> rfl
  unfold CanStop
  unfold processRequest at h ⊢
  simp only at h ⊢
  split at h
  · cases h
  · split at h
    · cases h
    · exact key _ _ _
  · split at h
    · cases h
    · cases h
    · split at h
      · cases h
      · exact key _ _ _
  · exact key _ _ _
  · exact key _ _ _
  · exact key _ _ _

/-- **C106 (large ids, violated).** A lookup of an id from 2^31 on is never answered, also if the id is in the store: the connection is closed.  After it, `stop` does not return. -/
theorem C106_large_violated (files : Files) (store : Store) (w : Web) {h m rest : Text} {n : Nat} (hf : LookupForm h m (decimal n) rest) (hn : 2147483648 ≤ n) :
    (processRequest files store w (lookupRequest h m (decimal n) rest)).1 = .closes ∧ ¬ CanStop (processRequest files store w (lookupRequest h m (decimal n) rest)).2 := by
  have hl : lookup store.get (decimal n) = .throws := by
    rw [lookup, stoi_decimal, if_neg (by omega)]
  simp [processRequest, requestOf_id hf, hl, CanStop]

/-- **C106 (unknown ids, violated).** For an id that is not in the store, the server makes a text from pointers that were never set. -/
theorem C106_unknown_violated (files : Files) (store : Store) (w : Web) {h m rest : Text} {n : Nat} (hf : LookupForm h m (decimal n) rest) (hn : n < 2147483648) (hg : store.get n = none) :
    (processRequest files store w (lookupRequest h m (decimal n) rest)).1 = .undefined := by
  have e : (((n : Int) % 4294967296).toNat) = n := by omega
  have hl : lookup store.get (decimal n) = .undefined := by
    rw [lookup, stoi_decimal, if_pos hn]
    simp only [e, hg]
  simp [processRequest, requestOf_id hf, hl]

/-- **C106 (negative numbers, violated).** No term has a negative id, but a lookup of `-n` is answered with the term of id 2^32 - n if the store has it. -/
theorem C106_negative_violated (files : Files) (store : Store) (w : Web) {h m rest t s : Text} {n : Nat} (hf : LookupForm h m (45 :: decimal n) rest) (hn : 0 < n ∧ n ≤ 2147483648)
    (hg : store.get (4294967296 - n) = some t) (hl : Label t s) :
    ∃ page, (processRequest files store w (lookupRequest h m (45 :: decimal n) rest)).1 = .sends (responseText true page) ∧ IsJson page (.obj [(bytes "value", .str s)]) := by
  obtain ⟨page, hp, hne, hj⟩ := lookupPage_json s
  refine ⟨page, ?_, hj⟩
  have hr : requestOf (lookupRequest h m (45 :: decimal n) rest) = some (.lookup (45 :: decimal n)) :=
    requestOf_value (fun h => by
      rcases List.mem_cons.1 h with h | h
      · omega
      · have := decimal_digit h; omega) hf
  have e : ((-(n : Int)) % 4294967296).toNat = 4294967296 - n := by omega
  have hk : lookup store.get (45 :: decimal n) = .text s := by
    rw [lookup, stoi_minus n hn.2]
    simp only [e, hg]
    cases hl with
    | iri => simp
    | other hc => simp [hc]
  simp only [processRequest, hr, hk, hp, finish, if_neg hne]

/-! ## C107: pages -/

/-- The text of a request for the page `p`. -/
def pageRequest (p rest : Text) : Text := ascii "GET " ++ (p ++ 32 :: (ascii "HTTP" ++ rest))

/-- A path that a request can have: at least two bytes, and no `HTTP` in it. -/
def PagePath (p rest : Text) : Prop := 1 < p.length ∧ First (ascii "HTTP") (ascii "GET " ++ (p ++ [32])) (ascii "HTTP" ++ rest)

theorem fill_ne {port : Nat} {content : Text} (h : content ≠ []) : fillPort port content ≠ [] := by
  unfold fillPort
  split
  · exact h
  · intro e
    simp only [List.append_eq_nil_iff] at e
    exact decimal_ne port e.2.1

theorem page_of {dir : Text} {port : Nat} {files : Files} {store : Store} {reqs : List Text} {p rest content : Text} (hp : PagePath p rest)
    (hc : files (place (dir ++ (47 :: p))) = some content) (hne : content ≠ []) :
    (processRequest files store (after store (started dir port) (reqs.map (files, ·))) (pageRequest p rest)).1 = .sends (responseText false (fillPort port content)) := by
  have hg : Good' dir port files (after store (started dir port) (reqs.map (files, ·))) := after_good store reqs ⟨rfl, rfl, fun _ _ h => by simp [started] at h⟩
  have h2 := ((getPage_good (hg.active true) p).2.1 content hc)
  simp only [processRequest, pageRequest, requestOf_get hp.2 hp.1, h2, finish, if_neg (fill_ne hne)]

/-- **C107 (page, part).** After any requests, a request for a file of the web interface returns what the file contains, with the port in it.
Missing: files that change (`C107_stale_violated`), files that have `WEB_PORT` twice (`C107_port_violated`), empty files (`C107_empty_violated`), paths with `HTTP` (`C107_name_violated`). -/
theorem C107_page_partial {dir : Text} {port : Nat} {files : Files} {store : Store} (reqs : List Text) {p rest content : Text} (hp : PagePath p rest)
    (hc : files (place (dir ++ (47 :: p))) = some content) (hne : content ≠ []) (hport : ∀ i j, Occurs (bytes "WEB_PORT") content i → Occurs (bytes "WEB_PORT") content j → i = j) :
    ∃ page, Shows port content page ∧
      (processRequest files store (after store (started dir port) (reqs.map (files, ·))) (pageRequest p rest)).1 = .sends (responseText false page) :=
  ⟨_, fillPort_shows hport, page_of hp hc hne⟩

/-- **C107 (inside, part).** A path without `..` stands for a place below the directory of the web interface.  Missing: paths with `..` (`C107_outside_violated`). -/
theorem C107_inside_partial (dir p : Text) (h : [46, 46] ∉ parts p) : Under dir (place (dir ++ (47 :: p))) := by
  obtain ⟨m, hm⟩ := walk_plain h (place dir)
  exact ⟨m, by rw [place_slash, hm]⟩

/-- **C107 (outside, violated).** Each file of the machine, wherever it is, can be read: with `/`, then `../` as often as the directory is deep, then the name of the file. -/
theorem C107_outside_violated (dir : Text) (port : Nat) (files : Files) (store : Store) (name content rest : Text) (hc : files (place name) = some content) (hne : content ≠ [])
    (hp : PagePath (47 :: (ups (place dir).length ++ name)) rest) :
    (processRequest files store (started dir port) (pageRequest (47 :: (ups (place dir).length ++ name)) rest)).1 = .sends (responseText false (fillPort port content)) := by
  have hpl : place (dir ++ (47 :: (47 :: (ups (place dir).length ++ name)))) = place name := by
    have e : parts (47 :: (ups (place dir).length ++ name)) = [] :: parts (ups (place dir).length ++ name) := by simp [parts]
    rw [place_slash, e, parts_ups, List.foldl_cons, List.foldl_append]
    have ew : Spec.walk (place dir) [] = place dir := by simp [Spec.walk]
    rw [ew, walk_ups _ _ (Nat.le_refl _)]
    rfl
  exact page_of (reqs := []) hp (by rw [hpl]; exact hc) hne

/-! ### The theorems are about something -/

/-- A store with a few terms. -/
def exStore : Store where
  run _ _ := none
  get n := if n = 5 then some (ascii "<http://a/b>") else if n = 6 then some (ascii "\"x\\y\"@en") else if n = 3000000000 then some (ascii "<c>") else none

/-- A directory with two pages, and a file elsewhere. -/
def exFiles : Files := fun l =>
  if l = [ascii "srv", ascii "web", ascii "index.html"] then some (ascii "port WEB_PORT!")
  else if l = [ascii "srv", ascii "web", ascii "js", ascii "a.js"] then some (ascii "var x;")
  else if l = [ascii "etc", ascii "passwd"] then some (ascii "root:x:0")
  else none

/-- A decidable way to see that a text stands first at a position. -/
theorem first_of_find {p a t : Text} (h : find p (a ++ t) = some a.length) (ht : p <+: t) : First p a t := ⟨ht, (find_some h).2⟩

theorem exForm (v : Text) (hv : v = decimal 5 ∨ v = decimal 7 ∨ v = decimal 3000000000 ∨ v = 45 :: decimal 1294967296) : LookupForm (ascii "/1.1\r\nContent-Type: ") (ascii "\r\n\r\n") v [] := by
  refine ⟨first_of_find ?_ (List.prefix_append _ _), first_of_find ?_ (List.prefix_append _ _), Or.inl rfl⟩ <;>
    rcases hv with rfl | rfl | rfl | rfl <;> decide +kernel

example : ∃ page, (processRequest exFiles exStore (started (ascii "/srv/web") 8080) (lookupRequest (ascii "/1.1\r\nContent-Type: ") (ascii "\r\n\r\n") (decimal 5) [])).1 = .sends (responseText true page) ∧
    IsJson page (.obj [(bytes "value", .str (ascii "http://a/b"))]) :=
  C106_lookup_partial exFiles exStore _ (exForm _ (Or.inl rfl)) (by decide) (t := ascii "<http://a/b>") (by decide +kernel)
    (by rw [show ascii "<http://a/b>" = 60 :: (ascii "http://a/b" ++ [62]) by decide +kernel]; exact .iri)

example : (processRequest exFiles exStore (started (ascii "/srv/web") 8080) (lookupRequest (ascii "/1.1\r\nContent-Type: ") (ascii "\r\n\r\n") (decimal 5) [])).1 =
    .sends (responseText true (ascii "{\"value\" : \"http://a/b\"}")) := by decide +kernel

/-- The request of the client. -/
example : (processRequest exFiles exStore (started (ascii "/srv/web") 8080) (postText (ascii "/lookup") (ascii "localhost") 8080 formType (formText [(ascii "id", decimal 6)]))).1 =
    .sends (responseText true (ascii "{\"value\" : \"\\u0022x\\u005cy\\u0022@en\"}")) := by decide +kernel

/-- An id in the store is not found. -/
example : exStore.get 3000000000 = some (ascii "<c>") ∧
    (processRequest exFiles exStore (started (ascii "/srv/web") 8080) (lookupRequest (ascii "/1.1\r\nContent-Type: ") (ascii "\r\n\r\n") (decimal 3000000000) [])).1 = .closes :=
  ⟨by decide +kernel, (C106_large_violated exFiles exStore _ (exForm _ (Or.inr (Or.inr (Or.inl rfl)))) (by decide)).1⟩

example : (processRequest exFiles exStore (started (ascii "/srv/web") 8080) (lookupRequest (ascii "/1.1\r\nContent-Type: ") (ascii "\r\n\r\n") (decimal 7) [])).1 = .undefined :=
  C106_unknown_violated exFiles exStore _ (exForm _ (Or.inr (Or.inl rfl))) (by decide) (by decide +kernel)

/-- The id -1294967296 finds the term of id 3000000000. -/
example : ∃ page, (processRequest exFiles exStore (started (ascii "/srv/web") 8080) (lookupRequest (ascii "/1.1\r\nContent-Type: ") (ascii "\r\n\r\n") (45 :: decimal 1294967296) [])).1 = .sends (responseText true page) ∧
    IsJson page (.obj [(bytes "value", .str (ascii "c"))]) :=
  C106_negative_violated exFiles exStore _ (exForm _ (Or.inr (Or.inr (Or.inr rfl)))) (by decide) (t := ascii "<c>") (by decide +kernel)
    (by rw [show ascii "<c>" = 60 :: (ascii "c" ++ [62]) by decide +kernel]; exact .iri)

theorem exPath : PagePath (ascii "/index.html") (ascii "/1.1\r\n\r\n") := ⟨by decide +kernel, first_of_find (by decide +kernel) (List.prefix_append _ _)⟩

/-- The second time the page comes from the cache. -/
example : ∃ page, Shows 8080 (ascii "port WEB_PORT!") page ∧
    (processRequest exFiles exStore (after exStore (started (ascii "/srv/web") 8080) ([pageRequest (ascii "/index.html") [], ascii "GET / HTTP"].map (exFiles, ·))) (pageRequest (ascii "/index.html") (ascii "/1.1\r\n\r\n"))).1 =
      .sends (responseText false page) := by
  refine C107_page_partial _ exPath (by decide +kernel) (by decide +kernel) fun i j hi hj => ?_
  have key : ∀ i, Occurs (bytes "WEB_PORT") (ascii "port WEB_PORT!") i → i = 5 := fun i h => by
    have h0 := byte_of_occurs h (show (bytes "WEB_PORT")[0]? = some 87 by decide +kernel)
    have hl : i < 14 := by
      rcases Nat.lt_or_ge i 14 with l | l
      · exact l
      · rw [List.getElem?_eq_none (by rw [show (ascii "port WEB_PORT!").length = 14 by decide +kernel]; omega)] at h0; cases h0
    have : ∀ k, k < 14 → (ascii "port WEB_PORT!")[k]? = some 87 → k = 5 := by decide +kernel
    exact this i hl h0
  rw [key i hi, key j hj]

example : (serve exStore (started (ascii "/srv/web") 8080) [(exFiles, pageRequest (ascii "/js/a.js") []), (exFiles, ascii "GET / HTTP/1.1")]) =
    [.sends (responseText false (ascii "var x;")), .sends (responseText false (ascii "port 8080!"))] := by decide +kernel

example : Under (ascii "/srv/web") (place (ascii "/srv/web" ++ 47 :: ascii "/js/./a.js")) := C107_inside_partial _ _ (by decide +kernel)

/-- A file outside of the directory is sent. -/
example : ¬ Under (ascii "/srv/web") (place (ascii "/etc/passwd")) ∧
    (processRequest exFiles exStore (started (ascii "/srv/web") 8080) (pageRequest (ascii "/../..//etc/passwd") (ascii "/1.1\r\n\r\n"))).1 = .sends (responseText false (ascii "root:x:0")) := by
  refine ⟨?_, ?_⟩
  · rw [Under, show place (ascii "/srv/web") = [ascii "srv", ascii "web"] by decide +kernel, show place (ascii "/etc/passwd") = [ascii "etc", ascii "passwd"] by decide +kernel]
    decide +kernel
  · have := C107_outside_violated (ascii "/srv/web") 8080 exFiles exStore (ascii "/etc/passwd") (ascii "root:x:0") (ascii "/1.1\r\n\r\n") (by decide +kernel) (by decide +kernel)
      ⟨by decide +kernel, first_of_find (by decide +kernel) (List.prefix_append _ _)⟩
    have e : 47 :: (ups (place (ascii "/srv/web")).length ++ ascii "/etc/passwd") = ascii "/../..//etc/passwd" := by decide +kernel
    have e2 : fillPort 8080 (ascii "root:x:0") = ascii "root:x:0" := by decide +kernel
    rwa [e, e2] at this

/-! ### What is not true -/

/-- **C107 (changed files, violated).** After a file was sent once, its changes are never sent. -/
theorem C107_stale_violated (dir : Text) (port : Nat) (files files' : Files) (store : Store) {p rest content : Text} (hp : PagePath p rest)
    (hc : files (place (dir ++ (47 :: p))) = some content) (hne : content ≠ []) :
    (serve store (started dir port) [(files, pageRequest p rest), (files', pageRequest p rest)]) =
      [.sends (responseText false (fillPort port content)), .sends (responseText false (fillPort port content))] := by
  simp [serve, processRequest, pageRequest, requestOf_get hp.2 hp.1, getPage, started, hc, finish, fill_ne hne, insert]

/-- **C107 (port, violated).** Only the first `WEB_PORT` is replaced. -/
theorem C107_port_violated : ∃ content, (processRequest (fun _ => some content) exStore (started (ascii "/srv/web") 8080) (pageRequest (ascii "/a.html") [])).1 = .sends (responseText false (ascii "8080 WEB_PORT")) ∧
    ¬ Shows 8080 content (ascii "8080 WEB_PORT") := by
  refine ⟨ascii "WEB_PORT WEB_PORT", by decide +kernel, ?_⟩
  generalize he : ascii "WEB_PORT WEB_PORT" = c
  generalize hp : ascii "8080 WEB_PORT" = p
  intro h
  cases h with
  | plain _ => rw [← hp] at he; exact absurd he (by decide +kernel)
  | @port a t page hf hs =>
    have ha : a = [] := by
      have := hf.2 0 ⟨[], ascii " WEB_PORT", by rw [← he]; decide +kernel, rfl⟩
      exact List.length_eq_zero_iff.1 (Nat.le_zero.1 this)
    subst ha
    have h8 : (bytes "WEB_PORT").length = 8 := by decide +kernel
    have ht : t = ascii " WEB_PORT" := by
      have e : (bytes "WEB_PORT" ++ t).drop 8 = (ascii "WEB_PORT WEB_PORT").drop 8 := by rw [he]; rfl
      rw [← h8, List.drop_left, h8] at e
      rw [e]; decide +kernel
    have hpage : page = ascii " WEB_PORT" := by
      have h4 : (bytes (toString 8080)).length = 4 := by decide +kernel
      have e : (bytes (toString 8080) ++ page).drop 4 = (ascii "8080 WEB_PORT").drop 4 := by rw [hp]; rfl
      rw [← h4, List.drop_left, h4] at e
      rw [e]; decide +kernel
    cases hs with
    | plain hn => exact hn 1 ⟨[32], [], by rw [ht]; decide +kernel, rfl⟩
    | @port a t page hf hs =>
      have e1 : (a ++ (bytes "WEB_PORT" ++ t))[a.length]? = some 87 := by
        rw [List.getElem?_append_right (Nat.le_refl _), Nat.sub_self, List.getElem?_append_left (by decide +kernel)]; decide +kernel
      have e2 : (a ++ (bytes (toString 8080) ++ page))[a.length]? = some 56 := by
        rw [List.getElem?_append_right (Nat.le_refl _), Nat.sub_self, List.getElem?_append_left (by decide +kernel)]; decide +kernel
      rw [ht] at e1
      rw [hpage, e1] at e2
      cases e2

/-- **C107 (empty files, violated).** For an empty file, the main page is sent. -/
theorem C107_empty_violated : ∃ files : Files, files (place (ascii "/srv/web/empty.css")) = some [] ∧
    (processRequest files exStore (started (ascii "/srv/web") 8080) (pageRequest (ascii "/empty.css") [])).1 = .sends (responseText false (ascii "port 8080!")) :=
  ⟨fun l => if l = [ascii "srv", ascii "web", ascii "empty.css"] then some [] else exFiles l, by decide +kernel, by decide +kernel⟩

/-- **C107 (names, violated).** A file with `HTTP` in its name cannot be read: the main page is sent. -/
theorem C107_name_violated : ∃ files : Files, files (place (ascii "/srv/web/HTTP.html")) = some (ascii "abc") ∧
    (processRequest files exStore (started (ascii "/srv/web") 8080) (pageRequest (ascii "/HTTP.html") (ascii "/1.1\r\n\r\n"))).1 = .sends (responseText false (ascii "port 8080!")) :=
  ⟨fun l => if l = [ascii "srv", ascii "web", ascii "HTTP.html"] then some (ascii "abc") else exFiles l, by decide +kernel, by decide +kernel⟩

/-- **C107 (missing files, violated).** If there is no file, the response says that the request succeeded. -/
theorem C107_missing_violated (dir : Text) (port : Nat) (files : Files) (store : Store) {p rest : Text} (hp : PagePath p rest) (hc : files (place (dir ++ (47 :: p))) = none) :
    ∃ u, (processRequest files store (started dir port) (pageRequest p rest)).1 = .sends (ascii "HTTP/1.1 200 OK" ++ u) := by
  have hne : ascii "Error! I cannot find the page to show." ≠ [] := by decide +kernel
  refine ⟨ascii "\r\nContent-Length: " ++ (decimal (ascii "Error! I cannot find the page to show.").length ++ (blank ++ ascii "Error! I cannot find the page to show.")), ?_⟩
  have e : ascii "HTTP/1.1 200 OK\r\nContent-Length: " = ascii "HTTP/1.1 200 OK" ++ ascii "\r\nContent-Length: " := by decide +kernel
  simp [processRequest, pageRequest, requestOf_get hp.2 hp.1, getPage, started, hc, finish, hne, responseText, e]

end Trident.Http
