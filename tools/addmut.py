import json,sys
def add(id,file,old,new,definition,edit,claim):
    open('/verif/seeded/mutations.jsonl','a').write(json.dumps(dict(id=id,file=file,old=old,new=new,definition=definition,edit=edit,claim=claim),ensure_ascii=False)+'\n')
