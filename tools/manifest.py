#!/usr/bin/env python3
"""Writes MANIFEST.json from the table below (theorem names are relative to namespace Buxn)."""
import json, os
here = os.path.dirname(os.path.dirname(os.path.abspath(__file__)))
T = {}
def c(pid, status, theorems, note):
    T[pid] = dict(property=pid, status=status, theorems=["Buxn." + t for t in theorems], note=note)

c("C01", "partial", ["VM.C01_execute_is_uxn", "VM.C01_execute_is_uxn_iso", "VM.C01_mul2_violated"],
  "Full conformance for any number of instructions when signed multiplication wraps; by the C standard MUL2 with a product above INT_MAX is undefined (witness theorem).")
c("C02", "proved", ["VM.C02_no_out_of_bounds", "VM.C02_no_undefined_behaviour", "VM.C02_small_memory_violated"],
  "For memories of at least 64K; the third theorem shows that the bound is needed.")
c("C03", "proved", ["VM.C03_pop_after_push", "VM.C03_push_after_pop"], "")
c("C04", "proved", ["VM.C04_stack_effect", "VM.C04_keep_preserves_operands"], "For DEI/DEO the callbacks must leave the stacks alone.")
c("C05", "proved", ["VM.C05_no_store_no_change", "VM.C05_store_only_there", "VM.C09_deo", "VM.C09_dei"], "")
c("C06", "proved", ["VM.C06_vector_zero", "VM.C06_halts_exactly_at_brk", "VM.C06_halted_stable"], "")
c("C07", "proved", ["VM.C07_hook_transparent"], "")
c("C08", "proved", ["VM.C08_reset_exact"], "")
c("C09", "proved", ["VM.C09_deo", "VM.C09_dei"], "Order of the two reads of DEI2 is unspecified in C; both are covered.")

exec(open(os.path.join(here, "tools", "claims.py")).read()) if os.path.exists(os.path.join(here, "tools", "claims.py")) else None

ids = [json.loads(l)["id"] for l in open(os.path.join(here, "properties.jsonl"))]
claims = []
for i in ids:
    claims.append(T.get(i, dict(property=i, status="partial", theorems=[], note="not yet proved")))
json.dump({"claims": claims}, open(os.path.join(here, "MANIFEST.json"), "w"), indent=1)
print(sum(1 for x in claims if x["theorems"]), "of", len(ids))
