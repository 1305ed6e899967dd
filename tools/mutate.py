"""Test the theorems against wrong programs.

Reads a JSON list of mutants from stdin: {"def", "file" (under lean/Verif), "old", "new", "claim", "props",
optional "tightened"}.  Each one is applied to a scratch copy, built, and the result is appended to
seeded/LOG.jsonl.
"""
import json, os, re, subprocess, sys, datetime
SRC = "/verif/lean"
DST = "/tmp/mut/lean"
LOG = "/verif/seeded/LOG.jsonl"

def sync():
    os.makedirs(DST, exist_ok=True)
    subprocess.run(["rsync", "-a", "--delete", SRC + "/", DST + "/"], check=False) if False else \
        subprocess.run(f"rm -rf {DST} && mkdir -p /tmp/mut && cp -a {SRC} {DST}", shell=True, check=True)

def enclosing(path, line):
    name = "?"
    with open(path) as f:
        for i, l in enumerate(f, 1):
            if i > line: break
            m = re.match(r"(?:private |protected |@\[.*?\] )*(theorem|lemma|example|def|instance|abbrev|structure)\s*(\S*)", l)
            if m: name = (m.group(1) + " " if m.group(1) not in ("theorem", "lemma") else "") + m.group(2).rstrip(":")
    return name.strip()

def main():
    mutants = json.load(sys.stdin)
    sync()
    bad = 0
    for m in mutants:
        p = os.path.join(DST, "Verif", m["file"])
        text = open(p).read()
        n = text.count(m["old"])
        if n != 1:
            print("!! pattern count", n, "for", m["def"], repr(m["old"])); bad += 1; continue
        open(p, "w").write(text.replace(m["old"], m["new"]))
        r = subprocess.run("lake build", shell=True, cwd=DST, capture_output=True, text=True)
        out = r.stdout + r.stderr
        open(p, "w").write(text)
        failed = []
        for mm in re.finditer(r"error: (Verif/\S+?\.lean):(\d+):", out):
            nm = enclosing(os.path.join(DST, mm.group(1)), int(mm.group(2)))
            e = f"{nm}"
            if mm.group(1).startswith("Verif/Model"): e = "MODEL:" + e
            if e not in failed: failed.append(e)
        if any(e.startswith("MODEL:") for e in failed):
            print("!! model does not compile:", m["def"], failed[:3], out[-1500:]); bad += 1; continue
        survived = r.returncode == 0
        rec = {"definition": m["def"], "file": m["file"], "edit": {"from": m["old"], "to": m["new"]},
               "claim_broken": m["claim"], "properties": m.get("props", []),
               "theorems_failed": failed, "tightened": m.get("tightened", [])}
        if survived: rec["result"] = "SURVIVED: " + m.get("why", "see later entry")
        with open(LOG, "a") as f: f.write(json.dumps(rec, ensure_ascii=False) + "\n")
        print(("SURVIVED " if survived else "killed   ") + m["def"], "::", m["claim"][:70], "->", failed[:4])
    print("bad:", bad)
main()
